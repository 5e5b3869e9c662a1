import Verif.Lang.FoldSim

/-! # An interpreter with checks, when no check trips, is the interpreter -/
namespace Verif.Lang

/-- Operators act as in the interpreter, or trip. -/
structure Refines (P : Prims) (I : Inst) : Prop where
  prims : I.P = P
  ap : ∀ op a b, I.ap op a b = applyOp P op a b ∨ I.ap op a b = .error .stuck

section
variable {P : Prims} {I J : Inst}

theorem ref_simF_ap (hI : Refines P I) (hJ : IsPlain P J) (op : BinOp) (a b : Value) :
    idCorr.simF (lift (I.ap op a b)) (lift (J.ap op a b)) := by
  intro s t h hf
  refine ⟨?_, h⟩
  have hf' := (idCorr_fine _).1 hf
  simp only [lift, hJ.ap] at hf' ⊢
  rcases hI.ap op a b with h1 | h1
  · rw [h1]
  · rw [h1] at hf'; simp at hf'

theorem ref_simF_evBin (hI : Refines P I) (hJ : IsPlain P J) (op : BinOp)
    {fa fb ga gb : State → Res Value} (ha : idCorr.simF fa ga) (hb : idCorr.simF fb gb) :
    idCorr.simF (evBin I op fa fb) (evBin J op ga gb) := by
  intro s t hst
  unfold evBin
  have hP : I.P = J.P := hI.prims.trans hJ.prims.symm
  split
  · refine sim_bind (ha s t hst) fun a s' t' h' => ?_
    rw [hP]
    split
    · exact simF_boolOut hb s' t' h'
    · exact sim_ret _ h'
  · refine sim_bind (ha s t hst) fun a s' t' h' => ?_
    rw [hP]
    split
    · exact sim_ret _ h'
    · exact simF_boolOut hb s' t' h'
  · exact sim_bind (ha s t hst) fun a s' t' h' =>
      sim_bind (hb s' t' h') fun b => ref_simF_ap hI hJ op a b

mutual
theorem ref_plainE_sim (hI : Refines P I) (hJ : IsPlain P J) (hc : idCorr.calls I J) :
    ∀ e : Expr, idCorr.simF (evalE I e) (evalE J e)
  | .lit l => fun s t h => by simp only [evalE]; exact sim_ret _ h
  | .var x => by
    intro s t h
    simp only [evalE, evVar]
    rw [← h.env, hJ.reads]
    cases s.env.lookup x with
    | none => exact sim_ret _ h
    | some v =>
      by_cases hr : I.reads x v = true
      · simp only [hr, if_true]; exact sim_ret _ h
      · intro hf
        have := (idCorr_fine _).1 hf
        simp [hr] at this
  | .bin op a b => by
    intro s t h
    simp only [evalE]
    exact ref_simF_evBin hI hJ op (ref_plainE_sim hI hJ hc a) (ref_plainE_sim hI hJ hc b) s t h
  | .not a => by
    intro s t h
    simp only [evalE]
    rw [hI.prims, hJ.prims]
    exact sim_bind (ref_plainE_sim hI hJ hc a s t h) fun v => simF_lift _
  | .call f args => by
    intro s t h
    simp only [evalE]
    exact simF_evCall (hI.prims.trans hJ.prims.symm) hc f _ (ref_plainEs_sim hI hJ hc args) s t h
  | .callv c args => by
    intro s t h
    simp only [evalE]
    exact sim_bind (ref_plainE_sim hI hJ hc c s t h) fun v =>
      simF_evCallv hc v (ref_plainEs_sim hI hJ hc args)
  | .list items => by
    intro s t h
    simp only [evalE]
    exact sim_bind (ref_plainEs_sim hI hJ hc items s t h) fun vs => simF_lift _
  | .index c i => by
    intro s t h
    simp only [evalE]
    rw [hI.prims, hJ.prims]
    exact sim_bind (ref_plainE_sim hI hJ hc c s t h) fun a s' t' h' =>
      sim_bind (ref_plainE_sim hI hJ hc i s' t' h') fun b => simF_lift _
  | .length c => by
    intro s t h
    simp only [evalE]
    rw [hI.prims, hJ.prims]
    exact sim_bind (ref_plainE_sim hI hJ hc c s t h) fun a => simF_lift _
  | .closure ps b => by
    intro s t h
    simp only [evalE]
    exact simF_evClosure ps rfl s t h

theorem ref_plainEs_sim (hI : Refines P I) (hJ : IsPlain P J) (hc : idCorr.calls I J) :
    ∀ es : List Expr, idCorr.simF (evalEs I es) (evalEs J es)
  | [] => fun s t h => by simp only [evalEs]; exact sim_ret _ h
  | e :: es => by
    intro s t h
    simp only [evalEs]
    exact sim_bind (ref_plainE_sim hI hJ hc e s t h) fun a s' t' h' =>
      sim_bind (ref_plainEs_sim hI hJ hc es s' t' h') fun b => simF_lift _
end

mutual
theorem ref_plainS_sim (hI : Refines P I) (hJ : IsPlain P J) (hc : idCorr.calls I J) (n : Nat) :
    ∀ st : Stmt, idCorr.simF (exec I n st) (exec J n st)
  | .letS x b m e => by
    intro s t h
    simp only [exec]
    exact sim_bind (ref_plainE_sim hI hJ hc e s t h) fun v => simF_doDefine x v
  | .set x e => by
    intro s t h
    simp only [exec]
    exact sim_bind (ref_plainE_sim hI hJ hc e s t h) fun v => simF_doAssign x v
  | .callS f args => by
    intro s t h
    simp only [exec]
    exact sim_bind (ref_plainE_sim hI hJ hc (.call f args) s t h) fun v => simF_lift _
  | .ifS c th el => by
    intro s t h
    simp only [exec]
    rw [hI.prims, hJ.prims]
    refine sim_bind (ref_plainE_sim hI hJ hc c s t h) fun v s' t' h' => ?_
    split
    · exact simF_inScope (ref_plainSs_sim hI hJ hc n th) s' t' h'
    · exact simF_inScope (ref_plainSs_sim hI hJ hc n el) s' t' h'
  | .whileS c b => by
    intro s t h
    simp only [exec]
    rw [hI.prims, hJ.prims]
    exact simF_whileLoop (ref_plainE_sim hI hJ hc c) (simF_inScope (ref_plainSs_sim hI hJ hc n b)) n s t h
  | .repeatS x e b => by
    intro s t h
    simp only [exec]
    rw [hI.prims, hJ.prims]
    exact sim_bind (ref_plainE_sim hI hJ hc e s t h) fun v =>
      simF_repeatLoop x v (simF_inScope (ref_plainSs_sim hI hJ hc n b))
  | .ret none => fun s t h => by simp only [exec]; exact sim_ret _ h
  | .ret (some e) => by
    intro s t h
    simp only [exec]
    exact sim_bind (ref_plainE_sim hI hJ hc e s t h) fun v => simF_lift _
  | .brk => fun s t h => by simp only [exec]; exact sim_ret _ h
  | .funDef f ps b => by
    intro s t h
    simp only [exec]
    exact sim_ret _ (st_defineFun h f ⟨rfl, rfl⟩)
  | .showS e => by
    intro s t h
    simp only [exec]
    rw [hI.prims, hJ.prims]
    exact sim_bind (ref_plainE_sim hI hJ hc e s t h) fun v => simF_doShow v
  | .assertS e => by
    intro s t h
    simp only [exec]
    rw [hI.prims, hJ.prims]
    exact sim_bind (ref_plainE_sim hI hJ hc e s t h) fun v => simF_doAssert v
  | .push x e => by
    intro s t h
    simp only [exec]
    exact sim_bind (ref_plainE_sim hI hJ hc e s t h) fun v => simF_doPush x v

theorem ref_plainSs_sim (hI : Refines P I) (hJ : IsPlain P J) (hc : idCorr.calls I J)
    (n : Nat) : ∀ ss : List Stmt, idCorr.simF (execs I n ss) (execs J n ss)
  | [] => fun s t h => by simp only [execs]; exact sim_ret _ h
  | st :: ss => by
    intro s t h
    simp only [execs]
    refine sim_bind (ref_plainS_sim hI hJ hc n st s t h) fun fl s' t' h' => ?_
    cases fl with
    | cont => exact ref_plainSs_sim hI hJ hc n ss s' t' h'
    | brk => exact sim_ret _ h'
    | ret v => exact sim_ret _ h'
end

/-- A run with checks that does not trip shows what the plain run shows. -/
theorem refines_run {ap : BinOp → Value → Value → Except Err Value} {rd : Sym → Value → Bool}
    (h : ∀ n, Refines P (inst P ap rd n)) {n : Nat} {p : List Stmt}
    (ht : ¬ Tripped (outcome (execs (inst P ap rd n) n p {})).error) :
    outcome (execs (inst P ap rd n) n p {}) = run P n p := by
  have hc : ∀ n, idCorr.calls (inst P ap rd n) (plain P n) := fun n => by
    refine calls_inst ?_ ?_ n
    · rintro n hn b b' rfl
      exact ref_plainE_sim (h n) (isPlain_plain n) hn b
    · rintro n hn b b' rfl
      exact fun s t _ hst => ref_plainSs_sim (h n) (isPlain_plain n) hn n b s t hst
  exact outcome_eq (ref_plainSs_sim (h n) (isPlain_plain n) (hc n) n p {} {} (st_empty _)
    ((idCorr_fine _).2 (fine_outcome.2 ht)))

end

end Verif.Lang
