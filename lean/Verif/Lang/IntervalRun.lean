import Verif.Lang.IntervalSim

/-! # The repaired interval pass does not change what a program does: statements and runs -/
namespace Verif.Lang

/-- Bodies and their forms after the repaired pass. -/
def ivCorr (G : List Sym) : Corr where
  body b b' := (∀ x ∈ allSetsSs b, x ∈ G) ∧ b' = (rpSs G [] b (fun _ => none)).1
  clo b b' := b = b'
  bad e := IvTripped (some e)

section
variable {P : Prims} {G own : List Sym} {V W W' : IMap} {I : Inst}

theorem iv_funInv {s t : State} (h : (ivCorr G).st s t) : FunInv (· ∈ G) s := by
  intro f fd hfd x hx
  rcases h.funs f with ⟨h1, _⟩ | ⟨a, b, h1, _, hab⟩
  · rw [h1] at hfd; cases hfd
  · rw [h1] at hfd; cases hfd
    exact hab.2.1 x hx

/-- The hypotheses every step of the simulation uses. -/
structure IvHyp (P : Prims) (G : List Sym) (I : Inst) : Prop where
  law : LengthLaw P
  chk : IsIv P I
  calls : (ivCorr G).calls I I
  eff : CallsEff (· ∈ G) I

mutual
theorem sameE_sim {C : Corr} (hc : C.calls I I) (hclo : ∀ b, C.clo b b) :
    ∀ e : Expr, C.simF (evalE I e) (evalE I e)
  | .lit l => fun s t h => by simp only [evalE]; exact sim_ret _ h
  | .var x => by intro s t h; simp only [evalE]; exact simF_evVar x s t h
  | .bin op a b => by
    intro s t h
    simp only [evalE]
    exact simF_evBin op (sameE_sim hc hclo a) (sameE_sim hc hclo b) s t h
  | .not a => by
    intro s t h
    simp only [evalE]
    exact sim_bind (sameE_sim hc hclo a s t h) fun v => simF_lift _
  | .call f args => by
    intro s t h
    simp only [evalE]
    exact simF_evCall rfl hc f _ (sameEs_sim hc hclo args) s t h
  | .callv c args => by
    intro s t h
    simp only [evalE]
    exact sim_bind (sameE_sim hc hclo c s t h) fun v => simF_evCallv hc v (sameEs_sim hc hclo args)
  | .list items => by
    intro s t h
    simp only [evalE]
    exact sim_bind (sameEs_sim hc hclo items s t h) fun vs => simF_lift _
  | .index c i => by
    intro s t h
    simp only [evalE]
    exact sim_bind (sameE_sim hc hclo c s t h) fun a s' t' h' =>
      sim_bind (sameE_sim hc hclo i s' t' h') fun b => simF_lift _
  | .length c => by
    intro s t h
    simp only [evalE]
    exact sim_bind (sameE_sim hc hclo c s t h) fun a => simF_lift _
  | .closure ps b => by
    intro s t h
    simp only [evalE]
    exact simF_evClosure ps (hclo b) s t h

theorem sameEs_sim {C : Corr} (hc : C.calls I I) (hclo : ∀ b, C.clo b b) :
    ∀ es : List Expr, C.simF (evalEs I es) (evalEs I es)
  | [] => fun s t h => by simp only [evalEs]; exact sim_ret _ h
  | e :: es => by
    intro s t h
    simp only [evalEs]
    exact sim_bind (sameE_sim hc hclo e s t h) fun v s' t' h' =>
      sim_bind (sameEs_sim hc hclo es s' t' h') fun vs => simF_lift _
end

theorem IvHyp.expr (h : IvHyp P G I) (e : Expr) : (ivCorr G).simF (evalE I e) (evalE I e) :=
  sameE_sim h.calls (fun _ => rfl) e

/-! ## Joining beliefs -/

theorem join_top_only {i j : Interval} (h : i.join j ≠ .top) : i ≠ .top ∧ j ≠ .top := by
  constructor
  · rintro rfl
    apply h
    unfold Interval.join
    split
    · rename_i hb; simp [Interval.isBottom, Interval.top, Bound.cmp] at hb
    · split
      · rfl
      · simp [Interval.top, min_negInf, max_posInf]
  · rintro rfl
    apply h
    unfold Interval.join
    split
    · rfl
    · split
      · rename_i hb; simp [Interval.isBottom, Interval.top, Bound.cmp] at hb
      · simp [Interval.top, min_negInf, max_posInf]

theorem either_range (a b : IMap) (x : Sym) :
    (a.either b).range x = .top ∨ (a.either b).range x = (a.range x).join (b.range x) := by
  unfold IMap.either IMap.range
  cases ha : a x <;> cases hb : b x <;> simp only [ha, hb] <;> simp

theorem Bel.eitherL {s : State} (h : Bel G own V s) (W : IMap) : Bel G own (V.either W) s := by
  refine ⟨?_, ?_, h.own⟩
  · intro x v hl
    rcases either_range V W x with h' | h'
    · rw [h']; exact vin_top v
    · rw [h']; exact vin_join_left (h.val x v hl)
  · intro x hne
    rcases either_range V W x with h' | h'
    · exact absurd h' hne
    · exact h.safe x (join_top_only (by rw [← h']; exact hne)).1

theorem Bel.eitherR {s : State} (h : Bel G own W s) (V : IMap) : Bel G own (V.either W) s := by
  refine ⟨?_, ?_, h.own⟩
  · intro x v hl
    rcases either_range V W x with h' | h'
    · rw [h']; exact vin_top v
    · rw [h']; exact vin_join_right (h.val x v hl)
  · intro x hne
    rcases either_range V W x with h' | h'
    · exact absurd h' hne
    · exact h.safe x (join_top_only (by rw [← h']; exact hne)).2

/-! ## Blocks and loops -/

/-- Two steps agree, and when the first goes on the beliefs afterwards are true. -/
def StepOk (G own : List Sym) (W' : IMap) (r r' : Res Flow) : Prop :=
  (ivCorr G).sim r r' ∧ ∀ s', r = (.ok .cont, s') → Bel G own W' s'

theorem block_sim (h : IvHyp P G I) (n : Nat) {ss ss' : List Stmt}
    (hg : ∀ x ∈ funSetsSs ss, x ∈ G)
    (ih : ∀ s t, Nested s → Bel G own W s → (ivCorr G).st s t →
      StepOk G own W' (execs I n ss s) (execs I n ss' t))
    {s t : State} (hb : Bel G own W s) (hst : (ivCorr G).st s t) :
    StepOk G own (W'.forget (topLets ss)) (inScope (execs I n ss) s) (inScope (execs I n ss') t) := by
  have hn : Nested (s.withEnv (·.pushScope)) := .inl (by simp [State.withEnv, Env.pushScope])
  have hbp : Bel G own W (s.withEnv (·.pushScope)) := ⟨hb.val, hb.safe, hb.own⟩
  obtain ⟨h1, h2⟩ := ih _ _ hn hbp (st_env hst _)
  refine ⟨sim_bind h1 fun fl s' t' h' => sim_ret _ (st_env h' _), ?_⟩
  intro s' hs'
  have he := inScope_eff (X := fun _ => True) (fun s fl s' hi hs h1 => execs_eff h.eff n ss s fl s'
    (.inl hs) (fun _ _ => trivial) hg hi h1) (iv_funInv hst) hs'
  obtain ⟨s1, h3, rfl⟩ := inScope_ok hs'
  obtain ⟨f', k1, k2⟩ := execs_names h.eff n ss (s.withEnv (·.pushScope)) _ _ [] s.env.saves
    rfl hg (iv_funInv (st_env hst (·.pushScope))) h3
  have hb1 := h2 s1 h3
  have hpop : ∀ x, x ∉ topLets ss → (s1.withEnv (·.popScope)).env.cur x = s1.env.cur x ∧
      (s1.withEnv (·.popScope)).env.lookup x = s1.env.lookup x := by
    intro x hx
    obtain ⟨p1, p2⟩ := pop_cur k1 x (by
      intro q hq hqx
      rw [List.append_nil] at hq
      exact hx (hqx ▸ k2 q hq))
    refine ⟨p1, ?_⟩
    rw [lookup_cur, lookup_cur]
    simp only [State.withEnv] at p1 p2 ⊢
    rw [p1, p2]
  refine ⟨?_, ?_, ?_⟩
  · intro x v hl
    by_cases hx : x ∈ topLets ss
    · rw [(forget_range _ _ _).1 hx]; exact vin_top v
    · rw [(forget_range _ _ _).2 hx]
      rw [(hpop x hx).2] at hl
      exact hb1.val x v hl
  · intro x hne
    by_cases hx : x ∈ topLets ss
    · exact absurd ((forget_range _ _ _).1 hx) hne
    · rw [(forget_range _ _ _).2 hx] at hne
      rw [(hpop x hx).1]
      exact hb1.safe x hne
  · intro x hx
    rw [(he.cur x).1]
    exact hb.own x hx

theorem stepOk_effB {s s' : State} {X : Sym → Prop} (hb : Bel G own V s)
    (he : EffB (· ∈ G) X s s') (xs : List Sym) (hx : ∀ x, X x → x ∈ xs) :
    Bel G own (V.forget xs) s' := by
  refine (hb.forget xs).effB he ?_
  intro x hne hX
  exact hne ((forget_range V xs x).1 (hx x hX))

theorem while_sim (h : IvHyp P G I) {c : Expr} {fb gb : State → Res Flow}
    (hb : ∀ s t, Bel G own (rpNarrow narrowBy G own c V) s → (ivCorr G).st s t →
      (ivCorr G).sim (fb s) (gb t))
    (kb : ∀ s fl s', FunInv (· ∈ G) s → Bel G own V s → fb s = (.ok fl, s') → Bel G own V s') :
    ∀ (n : Nat) (s t : State), Bel G own V s → (ivCorr G).st s t →
      (ivCorr G).sim (whileLoop I.P (evalE I c) fb n s) (whileLoop I.P (evalE I c) gb n t) ∧
      ∀ s', whileLoop I.P (evalE I c) fb n s = (.ok .cont, s') → Bel G own V s' ∧
        ((∀ s s', fb s ≠ (.ok .brk, s')) → Bel G own (rpNarrow narrowNot G own c V) s')
  | 0, s, t, _, hst => ⟨sim_ret _ hst, by intro s' hs'; simp [whileLoop] at hs'⟩
  | n + 1, s, t, hv, hst => by
    constructor
    · refine sim_bindP (h.expr c s t hst) fun v s' t' h1 _ h' => ?_
      have hn := narrow_bel h.law h.chk h.eff (iv_funInv hst) hv h1
      have hv' := hv.effE (evalE_eff h.eff c s v s' (iv_funInv hst) h1)
      split
      · rename_i ht
        rw [if_pos ht] at hn
        refine sim_bindP (hb s' t' hn h') fun fl s2 t2 h2 _ h'' => ?_
        cases fl with
        | cont => exact (while_sim h hb kb n s2 t2 (kb _ _ _ (iv_funInv h') hv' h2) h'').1
        | brk => exact sim_ret _ h''
        | ret v => exact sim_ret _ h''
      · exact sim_ret _ h'
    · intro s' hs'
      simp only [whileLoop, whileStep, bind_ok_iff] at hs'
      obtain ⟨v, s1, h1, h2⟩ := hs'
      have e1 := evalE_eff h.eff c s v s1 (iv_funInv hst) h1
      have hn := narrow_bel h.law h.chk h.eff (iv_funInv hst) hv h1
      have hv' := hv.effE e1
      have hst1 := (h.expr c s t hst (by rw [h1]; intro e he; cases he)).2
      rw [h1] at hst1
      split at h2
      · rename_i ht
        rw [if_pos ht] at hn
        rw [bind_ok_iff] at h2
        obtain ⟨fl, s2, h3, h4⟩ := h2
        have hb2 := kb _ _ _ e1.funs hv' h3
        cases fl with
        | cont =>
          have hst2 := (hb s1 _ hn hst1 (by rw [h3]; intro e he; cases he)).2
          rw [h3] at hst2
          exact (while_sim h hb kb n s2 _ hb2 hst2).2 s' h4
        | brk =>
          simp only [loopNext, Prod.mk.injEq] at h4
          obtain ⟨_, rfl⟩ := h4
          exact ⟨hb2, fun hno => absurd h3 (hno _ _)⟩
        | ret w => simp [loopNext] at h4
      · rename_i ht
        rw [if_neg ht] at hn
        simp only [Prod.mk.injEq] at h2
        obtain ⟨_, rfl⟩ := h2
        exact ⟨hv', fun _ => hn⟩

theorem each_sim {C : Corr} {Inv Inv' : State → Prop} (x : Sym) {fb gb : State → Res Flow}
    (hb : simI C Inv' fb gb) (kd : ∀ s v, Inv s → Inv' (s.withEnv (·.define x v)))
    (kb : ∀ s t a s', Inv' s → C.st s t → fb s = (.ok a, s') → Inv s') :
    ∀ vs, simI C Inv (eachItem x fb vs) (eachItem x gb vs)
  | [] => fun _ _ _ h => sim_ret _ h
  | v :: vs => by
    intro s t hs hst
    refine sim_bindP (hb _ _ (kd s v hs) (st_env hst _)) fun fl s2 t2 h2 _ h'' => ?_
    cases fl with
    | cont => exact each_sim x hb kd kb vs s2 t2 (kb _ _ _ _ (kd s v hs) (st_env hst _) h2) h''
    | brk => exact sim_ret _ h''
    | ret v => exact sim_ret _ h''

/-! ## Statements -/

/-- Where a block runs: in a block or function, or at the top of the program, whose declarations
no function assigns. -/
def Place (G : List Sym) (ds : List Sym) (s : State) : Prop := Nested s ∨ Top s ∧ ∀ x ∈ ds, x ∉ G

theorem Place.effB {ds : List Sym} {X : Sym → Prop} {s s' : State} (h : Place G ds s)
    (he : EffB (· ∈ G) X s s') : Place G ds s' := by
  rcases h with h | ⟨h, hd⟩
  · exact .inl (EffS.nested he.toS h)
  · exact .inr ⟨h.effB he, hd⟩

/-- A statement that only evaluates an expression and then leaves the environment alone. -/
theorem sim_of_ok {α : Type} {C : Corr} {r r' : Res α} {a : α} {s : State} (h : C.sim r r')
    (hr : r = (.ok a, s)) : C.st s r'.2 := by
  have := (h (by rw [hr]; intro e he; cases he)).2
  rw [hr] at this
  exact this

mutual
theorem rpS_sim (h : IvHyp P G I) (n : Nat) : ∀ (st : Stmt) (own : List Sym) (V : IMap)
    (s t : State), (∀ x ∈ funSetsS st, x ∈ G) → Place G (declS st) s → Bel G own V s →
    (ivCorr G).st s t →
    StepOk G (declS st ++ own) (rpS G own st V).2 (exec I n st s) (exec I n (rpS G own st V).1 t)
  | .letS x b m e, own, V, s, t, _, hp, hb, hst => by
    simp only [rpS, exec]
    refine ⟨sim_bind (h.expr e s t hst) fun v => simF_doDefine x v, ?_⟩
    intro s' hs'
    simp only [bind_ok_iff, doDefine, Prod.mk.injEq] at hs'
    obtain ⟨v, s2, h3, _, rfl⟩ := hs'
    have e2 := evalE_eff h.eff _ _ _ _ (iv_funInv hst) h3
    have hv := rangeE_sound h.law h.chk h.eff e s v s2 (iv_funInv hst) hb h3
    rcases hp.effB (EffE.toB (X := fun _ => False) e2) with hn | ⟨hn, hd⟩
    · exact (hb.effE e2).define hn x hv
    · exact (hb.effE e2).defineTop hn x (hd x (by simp [declS])) hv
  | .set x e, own, V, s, t, _, _, hb, hst => by
    simp only [rpS, exec]
    refine ⟨sim_bind (h.expr e s t hst) fun v => simF_doAssign x v, ?_⟩
    intro s' hs'
    simp only [bind_ok_iff] at hs'
    obtain ⟨v, s2, h3, h4⟩ := hs'
    have e2 := evalE_eff h.eff _ _ _ _ (iv_funInv hst) h3
    have hv := rangeE_sound h.law h.chk h.eff e s v s2 (iv_funInv hst) hb h3
    exact (hb.effE e2).assign hv h4
  | .callS f args, own, V, s, t, hg, _, hb, hst => by
    simp only [rpS]
    refine ⟨?_, ?_⟩
    · simp only [exec]
      exact sim_bind (h.expr (.call f args) s t hst) fun v => simF_lift _
    · intro s' hs'
      exact hb.effB (exec_eff (X := fun _ => False) h.eff n _ s _ s' rfl (by simp [setsS]) hg
        (iv_funInv hst) hs') (by simp)
  | .ifS c th el, own, V, s, t, hg, _, hb, hst => by
    have hi := iv_funInv hst
    have hgt : ∀ x ∈ funSetsSs th, x ∈ G := fun x hx => hg x (by simp [funSetsS, hx])
    have hge : ∀ x ∈ funSetsSs el, x ∈ G := fun x hx => hg x (by simp [funSetsS, hx])
    have bt : ∀ s t, Bel G own (rpNarrow narrowBy G own c V) s → (ivCorr G).st s t → StepOk G own
        ((rpSs G own th (rpNarrow narrowBy G own c V)).2.forget (topLets th))
        (inScope (execs I n th) s)
        (inScope (execs I n (rpSs G own th (rpNarrow narrowBy G own c V)).1) t) := fun s t hb hst =>
      block_sim h n hgt (fun s t hn hb hst => rpSs_sim h n th own _ s t hgt (.inl hn) hb hst) hb hst
    have be : ∀ s t, Bel G own (rpNarrow narrowNot G own c V) s → (ivCorr G).st s t → StepOk G own
        ((rpSs G own el (rpNarrow narrowNot G own c V)).2.forget (topLets el))
        (inScope (execs I n el) s)
        (inScope (execs I n (rpSs G own el (rpNarrow narrowNot G own c V)).1) t) :=
      fun s t hb hst =>
      block_sim h n hge (fun s t hn hb hst => rpSs_sim h n el own _ s t hge (.inl hn) hb hst) hb hst
    have bn : ∀ s t, Bel G own V s → (ivCorr G).st s t → StepOk G own V
        (inScope (execs I n []) s) (inScope (execs I n []) t) := fun s t hb hst => by
      have := block_sim (ss := []) (ss' := []) (W' := V) h n (by simp [funSetsSs])
        (fun s t hn hb hst => ⟨by simp only [execs]; exact sim_ret _ hst, fun s' hs' => by
          simp only [execs, Prod.mk.injEq] at hs'
          obtain ⟨_, rfl⟩ := hs'
          exact hb⟩) hb hst
      exact ⟨this.1, fun s' hs' => (this.2 s' hs').weaken fun x => .inr
        ((forget_range V [] x).2 (by simp)).symm⟩
    simp only [rpS]
    cases hd : rpDecide c V with
    | some d =>
      rcases rpDecide_sound h.law h.chk h.eff hi hb hd with hc | ⟨e, hc, ht⟩
      · have hnb := narrow_bel h.law h.chk h.eff hi hb hc
        cases d with
        | true =>
          simp only [exec, hc, bind_ok, truthy, if_true, evalE, litVal]
          exact bt s t hnb hst
        | false =>
          cases he : el.isEmpty with
          | true =>
            have : el = [] := List.isEmpty_iff.1 he
            subst this
            simp only [exec, hc, bind_ok, truthy, evalE, litVal, if_true, Bool.false_eq_true,
              if_false]
            exact bn s t hb hst
          | false =>
            simp only [exec, hc, bind_ok, truthy, evalE, litVal, Bool.false_eq_true, if_false]
            exact be s t hnb hst
      · have hex : exec I n (.ifS c th el) s = (.error e, s) := by simp only [exec, hc]; rfl
        rw [hex]
        exact ⟨fun hf => absurd ht (hf e rfl), by intro s' hs'; cases hs'⟩
    | none =>
      cases he : el.isEmpty with
      | true =>
        have : el = [] := List.isEmpty_iff.1 he
        subst this
        simp only [if_true, exec]
        constructor
        · refine sim_bindP (h.expr c s t hst) fun v s' t' h1 _ h' => ?_
          have hnb := narrow_bel h.law h.chk h.eff hi hb h1
          split
          · rename_i htr
            rw [if_pos htr] at hnb
            exact (bt s' t' hnb h').1
          · exact (bn s' t' (hb.effE (evalE_eff h.eff c s v s' hi h1)) h').1
        · intro s' hs'
          rw [bind_ok_iff] at hs'
          obtain ⟨v, s1, h1, h2⟩ := hs'
          have hnb := narrow_bel h.law h.chk h.eff hi hb h1
          have hst1 := sim_of_ok (h.expr c s t hst) h1
          split at h2
          · rename_i htr
            rw [if_pos htr] at hnb
            exact ((bt s1 _ hnb hst1).2 s' h2).eitherL V
          · exact ((bn s1 _ (hb.effE (evalE_eff h.eff c s v s1 hi h1)) hst1).2 s' h2).eitherR _
      | false =>
        simp only [Bool.false_eq_true, if_false, exec]
        constructor
        · refine sim_bindP (h.expr c s t hst) fun v s' t' h1 _ h' => ?_
          have hnb := narrow_bel h.law h.chk h.eff hi hb h1
          split
          · rename_i htr
            rw [if_pos htr] at hnb
            exact (bt s' t' hnb h').1
          · rename_i htr
            rw [if_neg htr] at hnb
            exact (be s' t' hnb h').1
        · intro s' hs'
          rw [bind_ok_iff] at hs'
          obtain ⟨v, s1, h1, h2⟩ := hs'
          have hnb := narrow_bel h.law h.chk h.eff hi hb h1
          have hst1 := sim_of_ok (h.expr c s t hst) h1
          split at h2
          · rename_i htr
            rw [if_pos htr] at hnb
            exact ((bt s1 _ hnb hst1).2 s' h2).eitherL _
          · rename_i htr
            rw [if_neg htr] at hnb
            exact ((be s1 _ hnb hst1).2 s' h2).eitherR _
  | .whileS c b, own, V, s, t, hg, _, hb, hst => by
    have hgb : ∀ x ∈ funSetsSs b, x ∈ G := fun x hx => hg x (by simp [funSetsS, hx])
    simp only [rpS, exec]
    have hb1 := hb.forget (setsSs b)
    have key := while_sim (V := V.forget (setsSs b)) h (c := c) (fb := inScope (execs I n b))
      (gb := inScope (execs I n
        (rpSs G own b (rpNarrow narrowBy G own c (V.forget (setsSs b)))).1))
      (fun s t hb hst => (block_sim h n hgb
        (fun s t hn hb hst => rpSs_sim h n b own _ s t hgb (.inl hn) hb hst) hb hst).1)
      (fun s fl s' hi hb h1 => hb.effB (X := fun x => x ∈ setsSs b)
        (inScope_eff (fun s fl s' hi hs h1 => execs_eff h.eff n b s fl s' (.inl hs)
          (fun x hx => hx) hgb hi h1) hi h1)
        (fun x hne hx => hne ((forget_range _ _ _).1 hx)))
      n s t hb1 hst
    refine ⟨key.1, ?_⟩
    intro s' hs'
    obtain ⟨k1, k2⟩ := key.2 s' hs'
    cases hbr : breaksSs b with
    | true => simp only [if_true]; exact k1
    | false =>
      simp only [Bool.false_eq_true, if_false]
      refine k2 fun s s' hbk => ?_
      obtain ⟨s1, h1, _⟩ := inScope_ok hbk
      have := execs_brk n b _ _ h1
      rw [hbr] at this
      cases this
  | .repeatS x e b, own, V, s, t, hg, _, hb, hst => by
    have hgb : ∀ x ∈ funSetsSs b, x ∈ G := fun x hx => hg x (by simp [funSetsS, hx])
    refine ⟨?_, ?_⟩
    · simp only [rpS, exec]
      refine sim_bindP (h.expr e s t hst) fun v s' t' h1 _ h' => ?_
      have hb' := (hb.effE (evalE_eff h.eff e s v s' (iv_funInv hst) h1)).forget (x :: setsSs b)
      refine sim_bindP (sim_ret _ h') fun vs s2 t2 h2 _ h'' => ?_
      have e2 : s2 = s' := (congrArg Prod.snd h2).symm
      subst e2
      refine simI_inScope (Inv := Bel G own (V.forget (x :: setsSs b)))
        (Inv' := fun s => s.env.saves ≠ [] ∧ Bel G own (V.forget (x :: setsSs b)) s)
        (each_sim (Inv' := fun s => s.env.saves ≠ [] ∧
          Bel G (x :: own) (V.forget (x :: setsSs b)) s) x (fun s t hs hst => ?_) ?_ ?_ vs)
        (fun s hs => ⟨by simp [State.withEnv, Env.pushScope], ⟨hs.val, hs.safe, hs.own⟩⟩) _ _ hb' h''
      · exact (block_sim h n hgb
          (fun s t hn hb hst => rpSs_sim h n b (x :: own) _ s t hgb (.inl hn) hb hst) hs.2 hst).1
      · intro s v hs
        refine ⟨define_saves_ne hs.1, (hs.2.define (.inl hs.1) x (vin_top v)).weaken ?_⟩
        intro y
        rw [put_range]
        by_cases hy : y = x
        · left; exact (forget_range _ _ _).1 (by simp [hy])
        · right; simp [hy]
      · intro s t a s' hs hst h1
        have e1 := inScope_eff (X := fun x => x ∈ setsSs b)
          (fun s fl s' hi hs h1 => execs_eff h.eff n b s fl s' (.inl hs) (fun x hx => hx) hgb hi h1)
            (iv_funInv hst) h1
        exact ⟨by rw [e1.saves]; exact hs.1, (hs.2.effB e1 (fun y hne hy =>
          hne ((forget_range _ _ _).1 (by simp [hy])))).fewer (by intro y hy; simp [hy])⟩
    · intro s' hs'
      simp only [rpS]
      exact stepOk_effB hb (exec_eff (X := fun y => y ∈ setsSs b) h.eff n _ s _ s' rfl
        (by intro y hy; simpa [setsS] using hy) hg (iv_funInv hst) hs') _ (fun _ hx => hx)
  | .ret none, own, V, s, t, _, _, _, hst => by
    simp only [rpS, exec]
    exact ⟨sim_ret _ hst, by intro s' hs'; cases hs'⟩
  | .ret (some e), own, V, s, t, _, _, _, hst => by
    simp only [rpS, exec]
    refine ⟨sim_bind (h.expr e s t hst) fun v => simF_lift _, ?_⟩
    intro s' hs'
    simp [bind_ok_iff] at hs'
  | .brk, own, V, s, t, _, _, _, hst => by
    simp only [rpS, exec]
    exact ⟨sim_ret _ hst, by intro s' hs'; cases hs'⟩
  | .funDef f ps b, own, V, s, t, hg, _, hb, hst => by
    simp only [rpS, exec]
    refine ⟨sim_ret _ (st_defineFun hst f ⟨rfl, fun x hx => hg x (by simpa [funSetsS] using hx),
      rfl⟩), ?_⟩
    intro s' hs'
    simp only [Prod.mk.injEq] at hs'
    obtain ⟨_, rfl⟩ := hs'
    exact ⟨hb.val, hb.safe, hb.own⟩
  | .showS e, own, V, s, t, hg, _, hb, hst => by
    simp only [rpS]
    refine ⟨?_, ?_⟩
    · simp only [exec]
      exact sim_bind (h.expr e s t hst) fun v => simF_doShow v
    · intro s' hs'
      exact hb.effB (exec_eff (X := fun _ => False) h.eff n _ s _ s' rfl (by simp [setsS]) hg
        (iv_funInv hst) hs') (by simp)
  | .assertS e, own, V, s, t, hg, _, hb, hst => by
    simp only [rpS]
    refine ⟨?_, ?_⟩
    · simp only [exec]
      exact sim_bind (h.expr e s t hst) fun v => simF_doAssert v
    · intro s' hs'
      exact hb.effB (exec_eff (X := fun _ => False) h.eff n _ s _ s' rfl (by simp [setsS]) hg
        (iv_funInv hst) hs') (by simp)
  | .push x e, own, V, s, t, _, _, hb, hst => by
    simp only [rpS, exec]
    refine ⟨sim_bind (h.expr e s t hst) fun v => simF_doPush x v, ?_⟩
    intro s' hs'
    simp only [bind_ok_iff] at hs'
    obtain ⟨v, s2, h3, h4⟩ := hs'
    have hb2 := hb.effE (evalE_eff h.eff _ _ _ _ (iv_funInv hst) h3)
    unfold doPush at h4
    split at h4
    · rename_i xs hxs
      have htop : V.range x = .top := by simpa [VIn] using hb2.val x _ hxs
      refine (hb2.assign (vin_top _) h4).weaken ?_
      intro y
      rw [put_range]
      by_cases hy : y = x
      · left; rw [hy]; exact htop
      · right; simp [hy]
    · cases h4
    · cases h4

theorem rpSs_sim (h : IvHyp P G I) (n : Nat) : ∀ (ss : List Stmt) (own : List Sym) (V : IMap)
    (s t : State), (∀ x ∈ funSetsSs ss, x ∈ G) → Place G (topLets ss) s → Bel G own V s →
    (ivCorr G).st s t →
    StepOk G own (rpSs G own ss V).2 (execs I n ss s) (execs I n (rpSs G own ss V).1 t)
  | [], own, V, s, t, _, _, hb, hst => by
    simp only [rpSs, execs]
    refine ⟨sim_ret _ hst, ?_⟩
    intro s' hs'
    simp only [Prod.mk.injEq] at hs'
    obtain ⟨_, rfl⟩ := hs'
    exact hb
  | st :: ss, own, V, s, t, hg, hp, hb, hst => by
    have hg1 : ∀ x ∈ funSetsS st, x ∈ G := fun x hx => hg x (by simp [funSetsSs, hx])
    have hg2 : ∀ x ∈ funSetsSs ss, x ∈ G := fun x hx => hg x (by simp [funSetsSs, hx])
    have hp1 : Place G (declS st) s := hp.imp id fun h' =>
      ⟨h'.1, fun x hx => h'.2 x (by simp [topLets, hx])⟩
    have hi := iv_funInv hst
    obtain ⟨k1, k2⟩ := rpS_sim h n st own V s t hg1 hp1 hb hst
    have hplace : ∀ fl s', exec I n st s = (.ok fl, s') → Place G (topLets ss) s' := by
      intro fl s' h1
      have hp2 : Place G (topLets ss) s := hp.imp id fun h' =>
        ⟨h'.1, fun x hx => h'.2 x (by simp [topLets, hx])⟩
      cases hlet : isLet st with
      | false => exact hp2.effB (exec_eff (X := fun _ => True) h.eff n st s _ s' hlet
          (fun _ _ => trivial) hg1 hi h1)
      | true =>
        cases st <;> simp [isLet] at hlet
        rename_i x b m e
        simp only [exec, bind_ok_iff, doDefine, Prod.mk.injEq] at h1
        obtain ⟨v, s2, h3, _, rfl⟩ := h1
        have e2 := evalE_eff h.eff _ _ _ _ hi h3
        rcases hp2.effB (EffE.toB (X := fun _ => False) e2) with hn | ⟨hn, hd⟩
        · exact .inl (EffS.nested (define_effS (X := fun _ => False) e2.funs hn x v) hn)
        · exact .inr ⟨(define_top hn x v).1, hd⟩
    simp only [rpSs, execs]
    constructor
    · refine sim_bindP k1 fun fl s' t' h1 _ h' => ?_
      cases fl with
      | brk => exact sim_ret _ h'
      | ret v => exact sim_ret _ h'
      | cont => exact (rpSs_sim h n ss _ _ s' t' hg2 (hplace _ _ h1) (k2 s' h1) h').1
    · intro s' hs'
      rw [bind_ok_iff] at hs'
      obtain ⟨fl, s1, h1, h2⟩ := hs'
      have hst1 := sim_of_ok k1 h1
      cases fl with
      | brk => simp at h2
      | ret v => simp at h2
      | cont =>
        exact ((rpSs_sim h n ss _ _ s1 _ hg2 (hplace _ _ h1) (k2 s1 h1) hst1).2 s' h2).fewer
          (by intro x hx; simp [hx])
end

/-! ## Programs -/

theorem bel_none {s : State} : Bel G [] (fun _ => none) s :=
  ⟨fun _ v _ => vin_top v, fun _ h => absurd rfl h, by simp⟩

theorem isIv_ivChecked (n : Nat) : IsIv P (ivChecked P n) := ⟨by cases n <;> rfl, by cases n <;> rfl, by
  intro x v; cases n <;> rfl⟩

theorem iv_calls (hl : LengthLaw P) (n : Nat) :
    (ivCorr G).calls (ivChecked P n) (ivChecked P n) := by
  refine calls_inst ?_ ?_ n
  · rintro n hn b b' rfl
    exact sameE_sim hn (fun _ => rfl) b
  · rintro n hn b b' ⟨h1, rfl⟩ s t hfr hst
    exact (rpSs_sim ⟨hl, isIv_ivChecked n, hn, callsEff_inst n⟩ n b [] _ s t
      (fun x hx => h1 x ((allSetsSs_split b x).2 (.inr hx))) (.inl (.inr hfr)) bel_none hst).1

theorem ivChecked_refines (n : Nat) : Refines P (inst P (ivOp P) (fun _ _ => true) n) := by
  refine ⟨by cases n <;> rfl, ?_⟩
  intro op a b
  have : (inst P (ivOp P) (fun _ _ => true) n).ap = ivOp P := by cases n <;> rfl
  rw [this]
  unfold ivOp
  split
  · split
    · rename_i v hv
      split
      · left; exact hv.symm
      · right; rfl
    · rename_i e he
      left; exact he.symm
  · right; rfl

theorem ivRun_plain {n : Nat} {p : List Stmt} (h : ¬ IvTripped (ivRun P n p).error) :
    ivRun P n p = run P n p :=
  refines_run (fun n => ivChecked_refines n) (fun ht => h (by
    unfold ivRun ivChecked
    revert ht
    cases (outcome (execs (inst P (ivOp P) (fun _ _ => true) n) n p {})).error with
    | none => exact fun h => h
    | some e => cases e <;> simp [Tripped, IvTripped]))

/-- The repaired pass on a program whose checked run does not trip. -/
theorem repaired_run (hl : LengthLaw P) {n : Nat} {p : List Stmt}
    (hg : ∀ x ∈ topLets p, x ∉ funSetsSs p) (h : ¬ IvTripped (ivRun P n p).error) :
    run P n (repairedProgram p) = run P n p := by
  have h1 := (rpSs_sim (G := funSetsSs p) ⟨hl, isIv_ivChecked n, iv_calls hl n, callsEff_inst n⟩ n p []
    (fun _ => none) {} {} (fun x hx => hx) (.inr ⟨⟨rfl, rfl, fun _ => rfl⟩, hg⟩) bel_none
    (st_empty _)).1 (by
      intro e he ht
      apply h
      unfold ivRun outcome
      rcases hr : execs (ivChecked P n) n p {} with ⟨r, s⟩
      rw [hr] at he
      subst he
      exact ht)
  have h2 : ivRun P n p = ivRun P n (repairedProgram p) := outcome_eq h1
  rw [← ivRun_plain h, h2]
  rw [h2] at h
  rw [ivRun_plain h]

end

end Verif.Lang
