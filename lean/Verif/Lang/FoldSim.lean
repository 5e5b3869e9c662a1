import Verif.Lang.FoldStep
import Verif.Lang.Sim

/-! # Folding a whole program is invisible to a checked run -/
namespace Verif.Lang

mutual
/-- The names folding takes to be Booleans inside the functions of a statement. -/
def boolNamesS (ord : List Sym → List Sym) : Stmt → List Sym
  | .ifS _ t e => boolNamesSs ord t ++ boolNamesSs ord e
  | .whileS _ b => boolNamesSs ord b
  | .repeatS _ _ b => boolNamesSs ord b
  | .funDef _ ps b => collectBools ord ps b ++ boolNamesSs ord b
  | _ => []

/-- The names folding takes to be Booleans inside the functions of a block. -/
def boolNamesSs (ord : List Sym → List Sym) : List Stmt → List Sym
  | [] => []
  | s :: ss => boolNamesS ord s ++ boolNamesSs ord ss
end

/-- Bodies and their folded forms; a run that trips a check is excluded. -/
def foldCorr (P : Prims) (ord : List Sym → List Sym) (B : List Sym) : Corr where
  body b b' := (∀ x ∈ boolNamesSs ord b, x ∈ B) ∧
    ∃ bools : BoolSyms, (∀ x ∈ bools, x ∈ B) ∧ b' = foldSs P ord bools b
  clo b b' := ∃ bools : BoolSyms, (∀ x ∈ bools, x ∈ B) ∧ b' = foldE P bools b
  bad e := Tripped (some e)

theorem fine_iff {P : Prims} {ord : List Sym → List Sym} {B : List Sym} {α : Type} (r : Res α) :
    (foldCorr P ord B).fine r ↔ Fine r := by
  rcases r with ⟨r, s⟩
  cases r with
  | ok a => simp [Corr.fine, Fine]
  | error e => simp [Corr.fine, Fine, foldCorr]

section
variable {P : Prims} {nz : Nat} {B : List Sym} {ord : List Sym → List Sym} {I : Inst}

/-- Compose a simulation with an equality of results that are not excluded. -/
theorem sim_then {α : Type} {C : Corr} {r r' r'' : Res α} (h : C.sim r r')
    (he : C.fine r' → r'' = r') : C.sim r r'' := by
  intro hf
  obtain ⟨h1, h2⟩ := h hf
  rw [he (by intro e h3; exact hf e (h1.trans h3))]
  exact ⟨h1, h2⟩

theorem fine_of {α : Type} {C : Corr} (hbad : ∀ e, Tripped (some e) → C.bad e) {r : Res α}
    (h : C.fine r) : Fine r := by
  rcases r with ⟨r, s⟩
  cases r with
  | ok a => simp [Fine]
  | error e => exact fun ht => h e rfl (hbad e ht)

section
variable {C : Corr} {bools : BoolSyms}

mutual
theorem foldE_simC (hl : Lawful P nz) (hI : IsChecked P nz B I)
    (hbad : ∀ e, Tripped (some e) → C.bad e) (hclo : ∀ b, C.clo b (foldE P bools b))
    (hc : C.calls I I) (hB : ∀ x ∈ bools, x ∈ B) :
    ∀ e : Expr, C.simF (evalE I e) (evalE I (foldE P bools e))
  | .lit l => fun s t h => by simp only [foldE, evalE]; exact sim_ret _ h
  | .var x => by
    have := simF_evVar (C := C) (I := I) x
    intro s t h
    simpa only [foldE, evalE] using this s t h
  | .bin op a b => by
    intro s t h
    have h1 := simF_evBin (I := I) op (foldE_simC hl hI hbad hclo hc hB a) (foldE_simC hl hI hbad hclo hc hB b) s t h
    simp only [foldE]
    refine sim_then (r' := evalE I (.bin op (foldE P bools a) (foldE P bools b)) t) ?_ fun hf =>
      foldBin_sound hl hI hB op _ _ t (fine_of hbad hf)
    simpa only [evalE] using h1
  | .not a => by
    intro s t h
    have h1 := foldE_simC hl hI hbad hclo hc hB a s t h
    simp only [foldE]
    refine sim_then (r' := evalE I (.not (foldE P bools a)) t) ?_ fun _ =>
      foldNot_sound hl hI hB _ t
    simp only [evalE]
    exact sim_bind h1 fun v => simF_lift _
  | .call f args => by
    intro s t h
    simp only [foldE, evalE]
    rw [foldEs_length]
    exact simF_evCall rfl hc f _ (foldEs_simC hl hI hbad hclo hc hB args) s t h
  | .callv c args => by
    intro s t h
    simp only [foldE, evalE]
    exact sim_bind (foldE_simC hl hI hbad hclo hc hB c s t h) fun v =>
      simF_evCallv hc v (foldEs_simC hl hI hbad hclo hc hB args)
  | .list items => by
    intro s t h
    simp only [foldE, evalE]
    exact sim_bind (foldEs_simC hl hI hbad hclo hc hB items s t h) fun vs => simF_lift _
  | .index c i => by
    intro s t h
    simp only [foldE, evalE]
    exact sim_bind (foldE_simC hl hI hbad hclo hc hB c s t h) fun a s' t' h' =>
      sim_bind (foldE_simC hl hI hbad hclo hc hB i s' t' h') fun b => simF_lift _
  | .length c => by
    intro s t h
    simp only [foldE, evalE]
    exact sim_bind (foldE_simC hl hI hbad hclo hc hB c s t h) fun a => simF_lift _
  | .closure ps b => by
    intro s t h
    simp only [foldE, evalE]
    exact simF_evClosure (C := C) ps (hclo b) s t h

theorem foldEs_simC (hl : Lawful P nz) (hI : IsChecked P nz B I)
    (hbad : ∀ e, Tripped (some e) → C.bad e) (hclo : ∀ b, C.clo b (foldE P bools b))
    (hc : C.calls I I) (hB : ∀ x ∈ bools, x ∈ B) :
    ∀ es : List Expr, C.simF (evalEs I es) (evalEs I (foldEs P bools es))
  | [] => fun s t h => by simp only [foldEs, evalEs]; exact sim_ret _ h
  | e :: es => by
    intro s t h
    simp only [foldEs, evalEs]
    exact sim_bind (foldE_simC hl hI hbad hclo hc hB e s t h) fun a s' t' h' =>
      sim_bind (foldEs_simC hl hI hbad hclo hc hB es s' t' h') fun b => simF_lift _

theorem foldEs_length {bools : BoolSyms} : ∀ es : List Expr,
    (foldEs P bools es).length = es.length
  | [] => rfl
  | e :: es => by simp [foldEs, foldEs_length es]
end

end

theorem foldE_sim (hl : Lawful P nz) (hI : IsChecked P nz B I)
    (hc : (foldCorr P ord B).calls I I) {bools : BoolSyms} (hB : ∀ x ∈ bools, x ∈ B) (e : Expr) :
    (foldCorr P ord B).simF (evalE I e) (evalE I (foldE P bools e)) :=
  foldE_simC (C := foldCorr P ord B) (bools := bools) hl hI (fun _ h => h)
    (fun _ => ⟨bools, hB, rfl⟩) hc hB e

mutual
theorem foldS_sim (hl : Lawful P nz) (hI : IsChecked P nz B I)
    (hc : (foldCorr P ord B).calls I I) (n : Nat) {bools : BoolSyms} (hB : ∀ x ∈ bools, x ∈ B) :
    ∀ st : Stmt, (∀ x ∈ boolNamesS ord st, x ∈ B) →
      (foldCorr P ord B).simF (exec I n st) (exec I n (foldS P ord bools st))
  | .letS x b m e, _ => by
    intro s t h
    simp only [foldS, exec]
    exact sim_bind (foldE_sim hl hI hc hB e s t h) fun v => simF_doDefine x v
  | .set x e, _ => by
    intro s t h
    simp only [foldS, exec]
    exact sim_bind (foldE_sim hl hI hc hB e s t h) fun v => simF_doAssign x v
  | .callS f args, _ => by
    intro s t h
    simp only [foldS, exec]
    have := foldE_sim hl hI hc hB (.call f args) s t h
    simp only [foldE] at this
    exact sim_bind this fun v => simF_lift _
  | .ifS c th el, hn => by
    intro s t h
    simp only [foldS, exec]
    refine sim_bind (foldE_sim hl hI hc hB c s t h) fun v s' t' h' => ?_
    split
    · exact simF_inScope (foldSs_sim hl hI hc n hB th
        (fun x hx => hn x (by simp [boolNamesS, hx]))) s' t' h'
    · exact simF_inScope (foldSs_sim hl hI hc n hB el
        (fun x hx => hn x (by simp [boolNamesS, hx]))) s' t' h'
  | .whileS c b, hn => by
    intro s t h
    simp only [foldS, exec]
    exact simF_whileLoop (foldE_sim hl hI hc hB c) (simF_inScope (foldSs_sim hl hI hc n hB b
        (fun x hx => hn x (by simp [boolNamesS, hx])))) n s t h
  | .repeatS x e b, hn => by
    intro s t h
    simp only [foldS, exec]
    exact sim_bind (foldE_sim hl hI hc hB e s t h) fun v =>
      simF_repeatLoop x v (simF_inScope (foldSs_sim hl hI hc n hB b
        (fun x hx => hn x (by simp [boolNamesS, hx]))))
  | .ret none, _ => fun s t h => by simp only [foldS, exec]; exact sim_ret _ h
  | .ret (some e), _ => by
    intro s t h
    simp only [foldS, exec]
    exact sim_bind (foldE_sim hl hI hc hB e s t h) fun v => simF_lift _
  | .brk, _ => fun s t h => by simp only [foldS, exec]; exact sim_ret _ h
  | .funDef f ps b, hn => by
    intro s t h
    simp only [foldS, exec]
    refine sim_ret _ (st_defineFun h f ⟨rfl, fun x hx => hn x (by simp [boolNamesS, hx]),
      collectBools ord ps b, fun x hx => hn x (by simp [boolNamesS, hx]), rfl⟩)
  | .showS e, _ => by
    intro s t h
    simp only [foldS, exec]
    exact sim_bind (foldE_sim hl hI hc hB e s t h) fun v => simF_doShow v
  | .assertS e, _ => by
    intro s t h
    simp only [foldS, exec]
    exact sim_bind (foldE_sim hl hI hc hB e s t h) fun v => simF_doAssert v
  | .push x e, _ => by
    intro s t h
    simp only [foldS, exec]
    exact sim_bind (foldE_sim hl hI hc hB e s t h) fun v => simF_doPush x v

theorem foldSs_sim (hl : Lawful P nz) (hI : IsChecked P nz B I)
    (hc : (foldCorr P ord B).calls I I) (n : Nat) {bools : BoolSyms} (hB : ∀ x ∈ bools, x ∈ B) :
    ∀ ss : List Stmt, (∀ x ∈ boolNamesSs ord ss, x ∈ B) →
      (foldCorr P ord B).simF (execs I n ss) (execs I n (foldSs P ord bools ss))
  | [], _ => fun s t h => by simp only [foldSs, execs]; exact sim_ret _ h
  | st :: ss, hn => by
    intro s t h
    simp only [foldSs, execs]
    refine sim_bind (foldS_sim hl hI hc n hB st
      (fun x hx => hn x (by simp [boolNamesSs, hx])) s t h) fun fl s' t' h' => ?_
    cases fl with
    | cont => exact foldSs_sim hl hI hc n hB ss (fun x hx => hn x (by simp [boolNamesSs, hx])) s' t' h'
    | brk => exact sim_ret _ h'
    | ret v => exact sim_ret _ h'
end

theorem isChecked_checked (n : Nat) : IsChecked P nz B (checked P nz B n) := ⟨rfl, rfl, rfl⟩

theorem fold_calls (hl : Lawful P nz) (n : Nat) :
    (foldCorr P ord B).calls (checked P nz B n) (checked P nz B n) := by
  refine calls_inst ?_ ?_ n
  · rintro n hn b b' ⟨bools, hB, rfl⟩
    exact foldE_sim hl (isChecked_checked n) hn hB b
  · rintro n hn b b' ⟨h1, bools, hB, rfl⟩
    exact fun s t _ h => foldSs_sim hl (isChecked_checked n) hn n hB b h1 s t h

end

/-! ## A checked run that does not trip is the plain run -/

/-- Equal bodies; a run that trips a check is excluded. -/
def idCorr : Corr where
  body b b' := b = b'
  clo b b' := b = b'
  bad e := Tripped (some e)

theorem idCorr_fine {α : Type} (r : Res α) : idCorr.fine r ↔ Fine r := by
  rcases r with ⟨r, s⟩
  cases r with
  | ok a => simp [Corr.fine, Fine]
  | error e => simp [Corr.fine, Fine, idCorr]

section
variable {P : Prims} {nz : Nat} {B : List Sym} {I J : Inst}

/-- A plain instance. -/
structure IsPlain (P : Prims) (I : Inst) : Prop where
  prims : I.P = P
  ap : I.ap = applyOp P
  reads : I.reads = fun _ _ => true

theorem simF_ap (hI : IsChecked P nz B I) (hJ : IsPlain P J) (op : BinOp) (a b : Value) :
    idCorr.simF (lift (I.ap op a b)) (lift (J.ap op a b)) := by
  intro s t h hf
  refine ⟨?_, h⟩
  have hf' := (idCorr_fine _).1 hf
  simp only [lift, hI.ap, hJ.ap] at hf' ⊢
  unfold checkedOp at hf' ⊢
  split at hf'
  · split at hf'
    · rename_i e; simp_all
    · rename_i e
      split at hf'
      · simp_all
      · simp at hf'
  · simp at hf'

theorem simF_evBin' (hI : IsChecked P nz B I) (hJ : IsPlain P J) (op : BinOp)
    {fa fb ga gb : State → Res Value} (ha : idCorr.simF fa ga) (hb : idCorr.simF fb gb) :
    idCorr.simF (evBin I op fa fb) (evBin J op ga gb) := by
  intro s t hst
  unfold evBin
  have hP : I.P = J.P := hI.prims.trans hJ.prims.symm
  split
  · refine sim_bind (ha s t hst) fun a s' t' h' => ?_
    rw [hP]
    split
    · exact simF_boolOut hb s' t' h'
    · exact sim_ret _ h'
  · refine sim_bind (ha s t hst) fun a s' t' h' => ?_
    rw [hP]
    split
    · exact sim_ret _ h'
    · exact simF_boolOut hb s' t' h'
  · exact sim_bind (ha s t hst) fun a s' t' h' =>
      sim_bind (hb s' t' h') fun b => simF_ap hI hJ op a b

mutual
theorem plainE_sim (hI : IsChecked P nz B I) (hJ : IsPlain P J) (hc : idCorr.calls I J) :
    ∀ e : Expr, idCorr.simF (evalE I e) (evalE J e)
  | .lit l => fun s t h => by simp only [evalE]; exact sim_ret _ h
  | .var x => by
    intro s t h
    simp only [evalE, evVar]
    rw [← h.env, hJ.reads]
    cases s.env.lookup x with
    | none => exact sim_ret _ h
    | some v =>
      by_cases hr : I.reads x v = true
      · simp only [hr, if_true]; exact sim_ret _ h
      · intro hf
        have := (idCorr_fine _).1 hf
        simp [hr] at this
  | .bin op a b => by
    intro s t h
    simp only [evalE]
    exact simF_evBin' hI hJ op (plainE_sim hI hJ hc a) (plainE_sim hI hJ hc b) s t h
  | .not a => by
    intro s t h
    simp only [evalE]
    rw [hI.prims, hJ.prims]
    exact sim_bind (plainE_sim hI hJ hc a s t h) fun v => simF_lift _
  | .call f args => by
    intro s t h
    simp only [evalE]
    exact simF_evCall (hI.prims.trans hJ.prims.symm) hc f _ (plainEs_sim hI hJ hc args) s t h
  | .callv c args => by
    intro s t h
    simp only [evalE]
    exact sim_bind (plainE_sim hI hJ hc c s t h) fun v =>
      simF_evCallv hc v (plainEs_sim hI hJ hc args)
  | .list items => by
    intro s t h
    simp only [evalE]
    exact sim_bind (plainEs_sim hI hJ hc items s t h) fun vs => simF_lift _
  | .index c i => by
    intro s t h
    simp only [evalE]
    rw [hI.prims, hJ.prims]
    exact sim_bind (plainE_sim hI hJ hc c s t h) fun a s' t' h' =>
      sim_bind (plainE_sim hI hJ hc i s' t' h') fun b => simF_lift _
  | .length c => by
    intro s t h
    simp only [evalE]
    rw [hI.prims, hJ.prims]
    exact sim_bind (plainE_sim hI hJ hc c s t h) fun a => simF_lift _
  | .closure ps b => by
    intro s t h
    simp only [evalE]
    exact simF_evClosure ps rfl s t h

theorem plainEs_sim (hI : IsChecked P nz B I) (hJ : IsPlain P J) (hc : idCorr.calls I J) :
    ∀ es : List Expr, idCorr.simF (evalEs I es) (evalEs J es)
  | [] => fun s t h => by simp only [evalEs]; exact sim_ret _ h
  | e :: es => by
    intro s t h
    simp only [evalEs]
    exact sim_bind (plainE_sim hI hJ hc e s t h) fun a s' t' h' =>
      sim_bind (plainEs_sim hI hJ hc es s' t' h') fun b => simF_lift _
end

mutual
theorem plainS_sim (hI : IsChecked P nz B I) (hJ : IsPlain P J) (hc : idCorr.calls I J) (n : Nat) :
    ∀ st : Stmt, idCorr.simF (exec I n st) (exec J n st)
  | .letS x b m e => by
    intro s t h
    simp only [exec]
    exact sim_bind (plainE_sim hI hJ hc e s t h) fun v => simF_doDefine x v
  | .set x e => by
    intro s t h
    simp only [exec]
    exact sim_bind (plainE_sim hI hJ hc e s t h) fun v => simF_doAssign x v
  | .callS f args => by
    intro s t h
    simp only [exec]
    exact sim_bind (plainE_sim hI hJ hc (.call f args) s t h) fun v => simF_lift _
  | .ifS c th el => by
    intro s t h
    simp only [exec]
    rw [hI.prims, hJ.prims]
    refine sim_bind (plainE_sim hI hJ hc c s t h) fun v s' t' h' => ?_
    split
    · exact simF_inScope (plainSs_sim hI hJ hc n th) s' t' h'
    · exact simF_inScope (plainSs_sim hI hJ hc n el) s' t' h'
  | .whileS c b => by
    intro s t h
    simp only [exec]
    rw [hI.prims, hJ.prims]
    exact simF_whileLoop (plainE_sim hI hJ hc c) (simF_inScope (plainSs_sim hI hJ hc n b)) n s t h
  | .repeatS x e b => by
    intro s t h
    simp only [exec]
    rw [hI.prims, hJ.prims]
    exact sim_bind (plainE_sim hI hJ hc e s t h) fun v =>
      simF_repeatLoop x v (simF_inScope (plainSs_sim hI hJ hc n b))
  | .ret none => fun s t h => by simp only [exec]; exact sim_ret _ h
  | .ret (some e) => by
    intro s t h
    simp only [exec]
    exact sim_bind (plainE_sim hI hJ hc e s t h) fun v => simF_lift _
  | .brk => fun s t h => by simp only [exec]; exact sim_ret _ h
  | .funDef f ps b => by
    intro s t h
    simp only [exec]
    exact sim_ret _ (st_defineFun h f ⟨rfl, rfl⟩)
  | .showS e => by
    intro s t h
    simp only [exec]
    rw [hI.prims, hJ.prims]
    exact sim_bind (plainE_sim hI hJ hc e s t h) fun v => simF_doShow v
  | .assertS e => by
    intro s t h
    simp only [exec]
    rw [hI.prims, hJ.prims]
    exact sim_bind (plainE_sim hI hJ hc e s t h) fun v => simF_doAssert v
  | .push x e => by
    intro s t h
    simp only [exec]
    exact sim_bind (plainE_sim hI hJ hc e s t h) fun v => simF_doPush x v

theorem plainSs_sim (hI : IsChecked P nz B I) (hJ : IsPlain P J) (hc : idCorr.calls I J)
    (n : Nat) : ∀ ss : List Stmt, idCorr.simF (execs I n ss) (execs J n ss)
  | [] => fun s t h => by simp only [execs]; exact sim_ret _ h
  | st :: ss => by
    intro s t h
    simp only [execs]
    refine sim_bind (plainS_sim hI hJ hc n st s t h) fun fl s' t' h' => ?_
    cases fl with
    | cont => exact plainSs_sim hI hJ hc n ss s' t' h'
    | brk => exact sim_ret _ h'
    | ret v => exact sim_ret _ h'
end

theorem isPlain_plain (n : Nat) : IsPlain P (plain P n) := ⟨rfl, rfl, rfl⟩

theorem plain_calls (n : Nat) : idCorr.calls (checked P nz B n) (plain P n) := by
  refine calls_inst ?_ ?_ n
  · rintro n hn b b' rfl
    exact plainE_sim (isChecked_checked n) (isPlain_plain n) hn b
  · rintro n hn b b' rfl
    exact fun s t _ h => plainSs_sim (isChecked_checked n) (isPlain_plain n) hn n b s t h

end

theorem st_empty (C : Corr) : C.st {} {} := ⟨rfl, rfl, fun _ => .inl ⟨rfl, rfl⟩, .nil⟩

/-- What agreeing results show of themselves. -/
theorem outcome_eq {α : Type} {C : Corr} {r r' : Res α} (h : r.1 = r'.1 ∧ C.st r.2 r'.2) :
    outcome r = outcome r' := by
  unfold outcome
  rw [h.1, h.2.out]

theorem fine_outcome {α : Type} {r : Res α} : Fine r ↔ ¬ Tripped (outcome r).error := by
  rcases r with ⟨r, s⟩
  cases r <;> simp [Fine, outcome, Tripped]

/-- A checked run that does not trip shows what the plain run shows. -/
theorem checkedRun_plain {P : Prims} {nz : Nat} {B : List Sym} {n : Nat} {p : List Stmt}
    (h : ¬ Tripped (checkedRun P nz B n p).error) : checkedRun P nz B n p = run P n p := by
  have hf : Fine (execs (checked P nz B n) n p {}) := fine_outcome.2 h
  exact outcome_eq (plainSs_sim (isChecked_checked n) (isPlain_plain n) (plain_calls n) n p {} {}
    (st_empty _) ((idCorr_fine _).2 hf))

/-- Folding a program whose checked run does not trip. -/
theorem fold_run {P : Prims} {nz : Nat} (hl : Lawful P nz) {ord : List Sym → List Sym}
    {B : List Sym} {n : Nat} {p : List Stmt}
    (hB : ∀ x ∈ collectBools ord [] p ++ boolNamesSs ord p, x ∈ B)
    (h : ¬ Tripped (checkedRun P nz B n p).error) :
    run P n (foldProgram P ord p) = run P n p := by
  have hf : Fine (execs (checked P nz B n) n p {}) := fine_outcome.2 h
  have h1 := foldSs_sim (ord := ord) hl (isChecked_checked (B := B) n) (fold_calls hl n) n
    (bools := collectBools ord [] p) (fun x hx => hB x (by simp [hx])) p
    (fun x hx => hB x (by simp [hx])) {} {} (st_empty _) ((fine_iff _).2 hf)
  have h2 : checkedRun P nz B n p = checkedRun P nz B n (foldProgram P ord p) := outcome_eq h1
  rw [← checkedRun_plain h, h2]
  rw [h2] at h
  rw [checkedRun_plain h]

end Verif.Lang
