import Verif.Lang.DceSim

/-! # Statements, blocks and calls without their dead code -/
namespace Verif.Lang

/-- Only the innermost scope changes while a block runs. -/
inductive Sh : List (List (Sym × Option Value)) → List (List (Sym × Option Value)) → Prop where
  | nil : Sh [] []
  | cons (a a' r) : Sh (a :: r) (a' :: r)

theorem Sh.refl : ∀ A, Sh A A
  | [] => .nil
  | a :: r => .cons a a r

theorem Sh.trans {A B C : List (List (Sym × Option Value))} (h1 : Sh A B) (h2 : Sh B C) : Sh A C := by
  cases h1 with
  | nil => exact h2
  | cons a a' r => cases h2 with
    | cons _ a'' _ => exact .cons a a'' r

theorem Sh.decl (x : Sym) (old : Option Value) : ∀ A, Sh A (declScope x old A)
  | [] => .nil
  | a :: r => .cons a _ r

theorem Sh.nil_right {A : List (List (Sym × Option Value))} (h : Sh [] A) : A = [] := by
  cases h; rfl

/-- Where a declaration makes a block variable in both runs or a global in both. -/
def LetOk (K : Scopes) (A : List (List (Sym × Option Value))) : Prop :=
  A ≠ [] ∨ (K.S = [] ∧ K.S' = [])

theorem LetOk.sh {K : Scopes} {A B : List (List (Sym × Option Value))} (h : LetOk K A) (hs : Sh A B) :
    LetOk K B := by
  cases hs with
  | nil => exact h
  | cons a a' r => exact .inl (by simp)

/-- Agreement with the innermost scope changed. -/
def DRS (K : Scopes) (A : List (List (Sym × Option Value))) (s t : State) : Prop :=
  ∃ B, Sh A B ∧ DR K B [] s t

section
variable {K : Scopes} {A : List (List (Sym × Option Value))} {D : List Sym} {s t : State} {I : Inst}

theorem DR.drs (h : DR K A [] s t) : DRS K A s t := ⟨A, Sh.refl A, h⟩

theorem DR.push (h : DR K A [] s t) :
    DR K ([] :: A) [] (s.withEnv (·.pushScope)) (t.withEnv (·.pushScope)) :=
  .mk0 h.frames h.frames' (by simp [State.withEnv, Env.pushScope, h.saves])
    (by simp [State.withEnv, Env.pushScope, h.saves']) h.globEq h.mainEq h.locEq h.out h.clos h.funs

theorem DR.pop {a : List (Sym × Option Value)} (h : DR K (a :: A) [] s t) :
    DR K A [] (s.withEnv (·.popScope)) (t.withEnv (·.popScope)) := by
  have hs : s.env.saves = a :: (A ++ K.S) := h.saves
  have ht : t.env.saves = a :: (A ++ K.S') := h.saves'
  have hE := h.isEmpty
  cases hf : s.env.frames.isEmpty with
  | true =>
    have hf' : t.env.frames.isEmpty = true := hE ▸ hf
    have e1 : s.env.popScope = { s.env with saves := A ++ K.S, mainBlock := undo s.env.mainBlock a } := by
      simp [Env.popScope, hs, hf]
    have e2 : t.env.popScope = { t.env with saves := A ++ K.S', mainBlock := undo t.env.mainBlock a } := by
      simp [Env.popScope, ht, hf']
    simp only [State.withEnv, e1, e2]
    exact .mk0 h.frames h.frames' rfl rfl h.globEq (by simp only [h.mainEq]) h.locEq h.out h.clos h.funs
  | false =>
    have hf' : t.env.frames.isEmpty = false := hE ▸ hf
    have e1 : s.env.popScope = { s.env with saves := A ++ K.S, locals := undo s.env.locals a } := by
      simp [Env.popScope, hs, hf]
    have e2 : t.env.popScope = { t.env with saves := A ++ K.S', locals := undo t.env.locals a } := by
      simp [Env.popScope, ht, hf']
    simp only [State.withEnv, e1, e2]
    exact .mk0 h.frames h.frames' rfl rfl h.globEq h.mainEq (by simp only [h.locEq]) h.out h.clos h.funs

theorem fwd_inScope {f g : State → Res Flow}
    (hfg : ∀ s t, DR K ([] :: A) [] s t → Fwd (DRS K ([] :: A)) (f s) (g t)) (h : DR K A [] s t) :
    Fwd (DR K A []) (inScope f s) (inScope g t) := by
  unfold inScope
  refine fwd_bind (hfg _ _ h.push) fun fl s t h => fwd_ret _ ?_
  obtain ⟨B, hB, hd⟩ := h
  cases hB with
  | cons _ a' _ => exact hd.pop

theorem fwd_while {P : Prims} {fc gc : State → Res Value} {fb gb : State → Res Flow}
    (hc : ∀ s t, DR K A [] s t → Fwd (DR K A []) (fc s) (gc t))
    (hb : ∀ s t, DR K A [] s t → Fwd (DR K A []) (fb s) (gb t)) : ∀ (n : Nat) (s t : State),
    DR K A [] s t → Fwd (DR K A []) (whileLoop P fc fb n s) (whileLoop P gc gb n t)
  | 0, s, t, h => by simp only [whileLoop]; exact fwd_ret _ h
  | n + 1, s, t, h => by
    simp only [whileLoop]
    unfold whileStep
    refine fwd_bind (hc s t h) fun v s t h => ?_
    split
    · refine fwd_bind (hb s t h) fun fl s t h => ?_
      cases fl with
      | cont => exact fwd_while hc hb n s t h
      | brk => exact fwd_ret _ h
      | ret v => exact fwd_ret _ h
    · exact fwd_ret _ h

theorem fwd_each (x : Sym) {fb gb : State → Res Flow}
    (hb : ∀ a s t, DR K (a :: A) [] s t → Fwd (DR K (a :: A) []) (fb s) (gb t)) :
    ∀ (vs : List Value) (a : List (Sym × Option Value)) (s t : State), DR K (a :: A) [] s t →
    Fwd (DRS K (a :: A)) (eachItem x fb vs s) (eachItem x gb vs t)
  | [], a, s, t, h => by simp only [eachItem]; exact fwd_ret _ h.drs
  | v :: vs, a, s, t, h => by
    simp only [eachItem]
    have h1 := h.define (x := x) (by simp) v (.inl (by simp))
    simp only [declScope] at h1
    refine fwd_bind (hb _ _ _ h1) fun fl s t h => ?_
    have hd : DRS K (a :: A) s t := ⟨_, .cons a _ A, h⟩
    cases fl with
    | cont =>
      refine fwd_mono (fwd_each x hb vs _ s t h) ?_
      rintro s t ⟨B, hB, h⟩
      exact ⟨B, (Sh.cons a _ A).trans hB, h⟩
    | brk => exact fwd_ret _ hd
    | ret v => exact fwd_ret _ hd

theorem fwd_repeat {P : Prims} (x : Sym) (v : Value) {fb gb : State → Res Flow}
    (hb : ∀ a s t, DR K (a :: A) [] s t → Fwd (DR K (a :: A) []) (fb s) (gb t))
    (h : DR K A [] s t) : Fwd (DR K A []) (repeatLoop P x v fb s) (repeatLoop P x v gb t) := by
  unfold repeatLoop
  refine fwd_bind (fwd_ret _ h) fun vs s t h => ?_
  exact fwd_inScope (fun s t h => fwd_each x hb vs [] s t h) h

theorem fwd_assign (x : Sym) (v : Value) (h : DR K A D s t) :
    Fwd (DR K A (D.filter (· ≠ x))) (doAssign x v s) (doAssign x v t) := by
  intro fl s' h'
  unfold doAssign at h' ⊢
  cases he : s.env.assign x v with
  | none => rw [he] at h'; cases h'
  | some e =>
    rw [he] at h'
    simp only [Prod.mk.injEq] at h'
    obtain ⟨e', h1, h2⟩ := h.assign he
    obtain ⟨h3, rfl⟩ := h'
    rw [h1]
    cases h3
    exact ⟨_, rfl, h2⟩

theorem fwd_push (x : Sym) (v : Value) (hx : x ∉ D) (h : DR K A D s t) :
    Fwd (DR K A D) (doPush x v s) (doPush x v t) := by
  unfold doPush
  rw [← h.lookup hx]
  split
  · refine fwd_mono (fwd_assign x _ h) ?_
    intro s t h
    exact h.widen fun y hy => (List.mem_filter.1 hy).1
  · intro a s' h'; cases h'
  · intro a s' h'; cases h'

theorem fwd_show (P : Prims) (v : Value) (h : DR K A D s t) :
    Fwd (DR K A D) (doShow P v s) (doShow P v t) := by
  unfold doShow
  exact fwd_ret _ { h with out := by simp only [h.out] }

theorem fwd_assert (P : Prims) (v : Value) (h : DR K A D s t) :
    Fwd (DR K A D) (doAssert P v s) (doAssert P v t) := by
  unfold doAssert
  split <;> exact fwd_ret _ h

theorem DR.defFun (h : DR K A D s t) (f : Sym) {a b : Fun} (hab : FnRel a b) :
    DR K A D (defineFun f a s) (defineFun f b t) :=
  { h with
    funs := by
      intro g
      simp only [defineFun]
      by_cases hg : g = f
      · simp only [hg, if_true]; exact .inr ⟨a, b, rfl, rfl, hab⟩
      · simp only [hg, if_false]; exact h.funs g }

theorem fwd_seq {f g : State → Res Flow} {ff gg : State → Res Flow} {Q Q' : State → State → Prop}
    (h1 : Fwd Q (f s) (g t)) (hstop : ∀ s t, Q s t → Q' s t)
    (h2 : ∀ s t, Q s t → Fwd Q' (ff s) (gg t)) :
    Fwd Q' ((f s).bind fun fl s' => match fl with | .cont => ff s' | other => (.ok other, s'))
      ((g t).bind fun fl s' => match fl with | .cont => gg s' | other => (.ok other, s')) := by
  refine fwd_bind h1 fun fl s t h => ?_
  cases fl with
  | cont => exact h2 s t h
  | brk => exact fwd_ret _ (hstop _ _ h)
  | ret v => exact fwd_ret _ (hstop _ _ h)

/-! ## The same statements on both sides -/

mutual
theorem rawS (hc : CallsFwd I) (n : Nat) : ∀ (st : Stmt) (K : Scopes)
    (A : List (List (Sym × Option Value))) (s t : State),
    LetOk K A ∨ declS st = [] → DR K A [] s t →
    Fwd (DRS K A) (exec I n st s) (exec I n st t)
  | .letS x _ _ e, K, A, s, t, hl, h => by
    have hl : LetOk K A := hl.resolve_right (by simp [declS])
    simp only [exec]
    refine fwd_bind (fwdE hc e s t h) fun v s t h => ?_
    unfold doDefine
    exact fwd_ret _ ⟨_, Sh.decl _ _ _, h.define (by simp) v hl⟩
  | .set x e, K, A, s, t, _, h => by
    simp only [exec]
    refine fwd_bind (fwdE hc e s t h) fun v s t h => ?_
    exact fwd_mono (fwd_assign x v h) fun s t h => DR.drs h
  | .callS f args, K, A, s, t, _, h => by
    simp only [exec]
    exact fwd_bind (fwdE hc (.call f args) s t h) fun v s t h => fwd_ret _ h.drs
  | .ifS c a b, K, A, s, t, _, h => by
    simp only [exec]
    refine fwd_bind (fwdE hc c s t h) fun v s t h => ?_
    split
    · exact fwd_mono (fwd_inScope (fun s t h => rawSs hc n a K _ s t (.inl (.inl (by simp))) h) h)
        fun s t h => h.drs
    · exact fwd_mono (fwd_inScope (fun s t h => rawSs hc n b K _ s t (.inl (.inl (by simp))) h) h)
        fun s t h => h.drs
  | .whileS c b, K, A, s, t, _, h => by
    simp only [exec]
    refine fwd_mono (fwd_while (fwdE hc c) (fun s t h => fwd_inScope (fun s t h => ?_) h) n s t h)
      fun s t h => h.drs
    exact rawSs hc n b K _ s t (.inl (.inl (by simp))) h
  | .repeatS x e b, K, A, s, t, _, h => by
    simp only [exec]
    refine fwd_bind (fwdE hc e s t h) fun v s t h => ?_
    refine fwd_mono (fwd_repeat x v (fun a s t h => fwd_inScope (fun s t h => ?_) h) h)
      fun s t h => h.drs
    exact rawSs hc n b K _ s t (.inl (.inl (by simp))) h
  | .ret none, K, A, s, t, _, h => by simp only [exec]; exact fwd_ret _ h.drs
  | .ret (some e), K, A, s, t, _, h => by
    simp only [exec]
    exact fwd_bind (fwdE hc e s t h) fun v s t h => fwd_ret _ h.drs
  | .brk, K, A, s, t, _, h => by simp only [exec]; exact fwd_ret _ h.drs
  | .funDef f ps b, K, A, s, t, _, h => by
    simp only [exec]
    exact fwd_ret _ (h.defFun f ⟨rfl, .inl rfl⟩).drs
  | .showS e, K, A, s, t, _, h => by
    simp only [exec]
    refine fwd_bind (fwdE hc e s t h) fun v s t h => ?_
    exact fwd_mono (fwd_show _ v h) fun s t h => DR.drs h
  | .assertS e, K, A, s, t, _, h => by
    simp only [exec]
    refine fwd_bind (fwdE hc e s t h) fun v s t h => ?_
    exact fwd_mono (fwd_assert _ v h) fun s t h => DR.drs h
  | .push x e, K, A, s, t, _, h => by
    simp only [exec]
    refine fwd_bind (fwdE hc e s t h) fun v s t h => ?_
    exact fwd_mono (fwd_push x v (by simp) h) fun s t h => DR.drs h

theorem rawSs (hc : CallsFwd I) (n : Nat) : ∀ (ss : List Stmt) (K : Scopes)
    (A : List (List (Sym × Option Value))) (s t : State),
    LetOk K A ∨ topLets ss = [] → DR K A [] s t →
    Fwd (DRS K A) (execs I n ss s) (execs I n ss t)
  | [], K, A, s, t, _, h => by simp only [execs]; exact fwd_ret _ h.drs
  | st :: ss, K, A, s, t, hl, h => by
    simp only [execs]
    refine fwd_seq (f := exec I n st) (g := exec I n st) (ff := execs I n ss) (gg := execs I n ss)
      (rawS hc n st K A s t (hl.imp id fun h => ?_) h) (fun s t h => h) ?_
    · simp only [topLets, List.append_eq_nil_iff] at h; exact h.1
    · rintro s t ⟨B, hB, h⟩
      refine fwd_mono (rawSs hc n ss K B s t ?_ h) ?_
      · refine hl.imp (fun h => h.sh hB) fun h => ?_
        simp only [topLets, List.append_eq_nil_iff] at h; exact h.2
      · rintro s t ⟨B', hB', h⟩
        exact ⟨B', hB.trans hB', h⟩
end

/-- A branch put in the place of its `If`: it declares nothing, so it needs no scope. -/
theorem flat_sim (hc : CallsFwd I) (n : Nat) {ss : List Stmt} (ht : topLets ss = [])
    (h : DR K A [] s t) : Fwd (DRS K A) (inScope (execs I n ss) s) (execs I n ss t) := by
  intro fl s' h'
  simp only [inScope, bind_ok_iff, Prod.mk.injEq] at h'
  obtain ⟨fl', s1, h1, h2, rfl⟩ := h'
  cases h2
  let K1 : Scopes := ⟨K.F, K.F', [] :: (A ++ K.S), A ++ K.S', K.same⟩
  have hd : DR K1 [] [] (s.withEnv (·.pushScope)) t :=
    .mk0 h.frames h.frames' (by simp [State.withEnv, Env.pushScope, h.saves, K1])
      (by simp [h.saves', K1]) h.globEq h.mainEq h.locEq h.out h.clos h.funs
  obtain ⟨t', h3, B, hB, h4⟩ := rawSs hc n ss K1 [] _ t (.inr ht) hd fl s1 h1
  refine ⟨t', h3, A, Sh.refl A, ?_⟩
  have hB := hB.nil_right
  subst hB
  have hs : s1.env.saves = [] :: (A ++ K.S) := h4.saves
  have e1 : s1.env.popScope = { s1.env with saves := A ++ K.S } := by
    unfold Env.popScope
    rw [hs]
    simp only [undo]
    split <;> rfl
  simp only [State.withEnv, e1]
  exact .mk0 h4.frames h4.frames' rfl h4.saves' h4.globEq h4.mainEq h4.locEq h4.out h4.clos h4.funs

/-! ## Treated statements and blocks -/

theorem execs_one (I : Inst) (n : Nat) (st : Stmt) (s : State) : execs I n [st] s = exec I n st s := by
  simp only [execs]
  rcases exec I n st s with ⟨r, s'⟩
  cases r with
  | error e => rfl
  | ok fl => cases fl <;> rfl

/-- A statement with an expression without calls, where some names are pending. -/
theorem fwd_pend {e : Expr} {k : Value → State → Res Flow} {Q : State → State → Prop}
    (ha : analyzable e = true) (hr : ∀ x ∈ D, x ∉ readsE e) (h : DR K A D s t)
    (hk : ∀ v, Fwd Q (k v s) (k v t)) :
    Fwd Q ((evalE I e s).bind k) ((evalE I e t).bind k) := by
  intro fl s' h'
  rw [bind_ok_iff] at h'
  obtain ⟨v, s1, h1, h2⟩ := h'
  obtain ⟨rfl, h3⟩ := analyzable_eval e s t s1 v ha
    (fun x hx => h.lookup fun hD => hr x hD hx) h1
  rw [h3]
  exact hk v fl s' h2

theorem GoodScan.set {x y : Sym} {e : Expr} {rest : List Stmt} (h : GoodScan x (.set y e :: rest)) :
    analyzable e = true ∧ x ∉ readsE e ∧ (x ≠ y → GoodScan x rest) := by
  cases h with
  | here h1 h2 => exact ⟨h1, h2, fun h => absurd rfl h⟩
  | skip h1 h2 h3 =>
    refine ⟨?_, by simpa [readsS] using h2, fun _ => h3⟩
    simpa [passes, callFree_eq] using h1

theorem GoodScan.pass {x : Sym} {st : Stmt} {rest : List Stmt} (h : GoodScan x (st :: rest))
    (hs : ∀ e, st ≠ .set x e) : passes x st = true ∧ x ∉ readsS st ∧ GoodScan x rest := by
  cases h with
  | here h1 h2 => exact absurd rfl (hs _)
  | skip h1 h2 h3 => exact ⟨h1, h2, h3⟩

end

/-- Running the treated block, given that treated statements and the treated rest do the same. -/
theorem seqRec {I : Inst} {n : Nat} {K : Scopes} {A : List (List (Sym × Option Value))}
    {st : Stmt} {l : List Stmt} {rest rest' : List Stmt} {s t : State} {Q : State → State → Prop}
    (h1 : Fwd Q (exec I n st s) (execs I n l t)) (hstop : ∀ s t, Q s t → DRS K A s t)
    (h2 : ∀ s t, Q s t → Fwd (DRS K A) (execs I n rest s) (execs I n rest' t)) :
    Fwd (DRS K A) (execs I n (st :: rest) s) (execs I n (l ++ rest') t) := by
  rw [execs_append]
  simp only [execs]
  exact fwd_seq (f := exec I n st) (g := execs I n l) (ff := execs I n rest)
    (gg := execs I n rest') h1 hstop h2

/-- The same for a statement that always continues. -/
theorem seqCont {I : Inst} {n : Nat} {K : Scopes} {A : List (List (Sym × Option Value))}
    {st : Stmt} {l : List Stmt} {rest rest' : List Stmt} {s t : State} {Q : State → State → Prop}
    (h1 : Fwd Q (exec I n st s) (execs I n l t))
    (hcont : ∀ fl s', exec I n st s = (.ok fl, s') → fl = .cont)
    (h2 : ∀ s t, Q s t → Fwd (DRS K A) (execs I n rest s) (execs I n rest' t)) :
    Fwd (DRS K A) (execs I n (st :: rest) s) (execs I n (l ++ rest') t) := by
  intro fl s' h'
  rw [execs_append]
  simp only [execs, bind_ok_iff] at h' ⊢
  obtain ⟨f1, s1, h3, h4⟩ := h'
  have := hcont f1 s1 h3
  subst this
  obtain ⟨t1, h5, h6⟩ := h1 _ _ h3
  obtain ⟨t2, h7, h8⟩ := h2 _ _ h6 fl s' h4
  exact ⟨t2, ⟨.cont, t1, h5, h7⟩, h8⟩

/-- Simple statements always continue. -/
theorem simple_cont {I : Inst} {n : Nat} {x : Sym} {st : Stmt} (hp : passes x st = true) {s s' : State}
    {fl : Flow} (h : exec I n st s = (.ok fl, s')) : fl = .cont := by
  cases st with
  | letS y a b e =>
    simp only [exec, bind_ok_iff, doDefine, Prod.mk.injEq, Except.ok.injEq] at h
    obtain ⟨_, _, _, h, _⟩ := h; exact h.symm
  | set y e =>
    simp only [exec, bind_ok_iff, doAssign] at h
    obtain ⟨_, _, _, h⟩ := h
    split at h <;> simp only [Prod.mk.injEq, Except.ok.injEq, reduceCtorEq, false_and] at h
    exact h.1.symm
  | showS e =>
    simp only [exec, bind_ok_iff, doShow, Prod.mk.injEq, Except.ok.injEq] at h
    obtain ⟨_, _, _, h, _⟩ := h; exact h.symm
  | assertS e =>
    simp only [exec, bind_ok_iff, doAssert] at h
    obtain ⟨_, _, _, h⟩ := h
    split at h <;> simp only [Prod.mk.injEq, Except.ok.injEq, reduceCtorEq, false_and] at h
    exact h.1.symm
  | push y e =>
    simp only [exec, bind_ok_iff, doPush] at h
    obtain ⟨_, _, _, h⟩ := h
    split at h
    · unfold doAssign at h
      split at h <;> simp only [Prod.mk.injEq, Except.ok.injEq, reduceCtorEq, false_and] at h
      exact h.1.symm
    · cases h
    · cases h
  | funDef f ps b =>
    simp only [exec, Prod.mk.injEq, Except.ok.injEq] at h; exact h.1.symm
  | _ => simp [passes] at hp

mutual
theorem dceS {I : Inst} (hc : CallsFwd I) (n : Nat) : ∀ (st : Stmt) (K : Scopes)
    (A : List (List (Sym × Option Value))) (s t : State),
    tidyS st → LetOk K A → DR K A [] s t →
    Fwd (DRS K A) (exec I n st s) (execs I n (elimS st) t)
  | .ifS c a b, K, A, s, t, ht, hl, h => by
    simp only [tidyS] at ht
    obtain ⟨h1, h2, h3, h4, h5, h6⟩ := ht
    have gen : Fwd (DRS K A) (exec I n (.ifS c a b) s)
        (execs I n [.ifS c (dceBlock a) (dceBlock b)] t) := by
      rw [execs_one]
      simp only [exec]
      refine fwd_bind (fwdE hc c s t h) fun v s t h => ?_
      split
      · refine fwd_mono (fwd_inScope (fun s t h => ?_) h) fun s t h => h.drs
        rw [dceBlock_eq, truncRet_execs]
        exact dceSs hc n a K _ [] s t h1 h3 (.inl (by simp)) (by simp) h
      · refine fwd_mono (fwd_inScope (fun s t h => ?_) h) fun s t h => h.drs
        rw [dceBlock_eq, truncRet_execs]
        exact dceSs hc n b K _ [] s t h2 h4 (.inl (by simp)) (by simp) h
    unfold elimS
    split
    · simp only [exec, evalE, litVal, Res.bind, truthy, if_true]
      exact flat_sim hc n (h5 rfl) h
    · simp only [exec, evalE, litVal, Res.bind, truthy, Bool.false_eq_true, if_false]
      exact flat_sim hc n (h6 rfl) h
    · exact gen
  | .whileS c b, K, A, s, t, ht, hl, h => by
    simp only [tidyS] at ht
    have gen : Fwd (DRS K A) (exec I n (.whileS c b) s) (execs I n [.whileS c (dceBlock b)] t) := by
      rw [execs_one]
      simp only [exec]
      refine fwd_mono (fwd_while (fwdE hc c) (fun s t h => fwd_inScope (fun s t h => ?_) h) n s t h)
        fun s t h => h.drs
      rw [dceBlock_eq, truncRet_execs]
      exact dceSs hc n b K _ [] s t ht.1 ht.2 (.inl (by simp)) (by simp) h
    unfold elimS
    split
    · simp only [exec, execs]
      intro fl s' h'
      cases n with
      | zero => simp [whileLoop] at h'
      | succ n =>
        simp only [whileLoop, whileStep, evalE, litVal, Res.bind, truthy, Bool.false_eq_true,
          if_false, Prod.mk.injEq, Except.ok.injEq] at h'
        obtain ⟨rfl, rfl⟩ := h'
        exact ⟨t, rfl, h.drs⟩
    · exact gen
  | .repeatS x e b, K, A, s, t, ht, hl, h => by
    simp only [tidyS] at ht
    have : elimS (.repeatS x e b) = [.repeatS x e (dceBlock b)] := rfl
    rw [this, execs_one]
    simp only [exec]
    refine fwd_bind (fwdE hc e s t h) fun v s t h => ?_
    refine fwd_mono (fwd_repeat x v (fun a s t h => fwd_inScope (fun s t h => ?_) h) h)
      fun s t h => h.drs
    rw [dceBlock_eq, truncRet_execs]
    exact dceSs hc n b K _ [] s t ht.1 ht.2 (.inl (by simp)) (by simp) h
  | .funDef f ps b, K, A, s, t, ht, hl, h => by
    simp only [tidyS] at ht
    have : elimS (.funDef f ps b) = [.funDef f ps (dceBlock b)] := rfl
    rw [this, execs_one]
    simp only [exec]
    have htb : Tidy b := ht
    have hr : FnRel ⟨ps.map Prod.fst, b⟩ ⟨ps.map Prod.fst, dceBlock b⟩ := ⟨rfl, .inr ⟨htb, rfl⟩⟩
    exact fwd_ret _ (h.defFun f hr).drs
  | .letS x m u e, K, A, s, t, _, hl, h => by
    have : elimS (.letS x m u e) = [.letS x m u e] := rfl
    rw [this, execs_one]; exact rawS hc n _ K A s t (.inl hl) h
  | .set x e, K, A, s, t, _, hl, h => by
    have : elimS (.set x e) = [.set x e] := rfl
    rw [this, execs_one]; exact rawS hc n _ K A s t (.inl hl) h
  | .callS f args, K, A, s, t, _, hl, h => by
    have : elimS (.callS f args) = [.callS f args] := rfl
    rw [this, execs_one]; exact rawS hc n _ K A s t (.inl hl) h
  | .ret e, K, A, s, t, _, hl, h => by
    have : elimS (.ret e) = [.ret e] := rfl
    rw [this, execs_one]; exact rawS hc n _ K A s t (.inl hl) h
  | .brk, K, A, s, t, _, hl, h => by
    have : elimS .brk = [.brk] := rfl
    rw [this, execs_one]; exact rawS hc n _ K A s t (.inl hl) h
  | .showS e, K, A, s, t, _, hl, h => by
    have : elimS (.showS e) = [.showS e] := rfl
    rw [this, execs_one]; exact rawS hc n _ K A s t (.inl hl) h
  | .assertS e, K, A, s, t, _, hl, h => by
    have : elimS (.assertS e) = [.assertS e] := rfl
    rw [this, execs_one]; exact rawS hc n _ K A s t (.inl hl) h
  | .push x e, K, A, s, t, _, hl, h => by
    have : elimS (.push x e) = [.push x e] := rfl
    rw [this, execs_one]; exact rawS hc n _ K A s t (.inl hl) h

theorem dceSs {I : Inst} (hc : CallsFwd I) (n : Nat) : ∀ (ss : List Stmt) (K : Scopes)
    (A : List (List (Sym × Option Value))) (D : List Sym) (s t : State),
    tidySs ss → settled ss → LetOk K A → (∀ x ∈ D, GoodScan x ss) → DR K A D s t →
    Fwd (DRS K A) (execs I n ss s) (execs I n (dceRec ss) t)
  | [], K, A, D, s, t, _, _, _, hD, h => by
    have : D = [] := by
      cases D with
      | nil => rfl
      | cons x D => cases hD x (by simp)
    subst this
    simp only [execs, dceRec]
    exact fwd_ret _ h.drs
  | st :: rest, K, A, D, s, t, ht, hs, hl, hD, h => by
    simp only [tidySs] at ht
    have ih := dceSs hc n rest
    have hs' := settled_tail hs
    have weak : ∀ {B : List (List (Sym × Option Value))} {r r' : Res Flow}, Sh A B →
        Fwd (DRS K B) r r' → Fwd (DRS K A) r r' := by
      intro B r r' hB h
      refine fwd_mono h ?_
      rintro s t ⟨C, hC, h⟩
      exact ⟨C, hB.trans hC, h⟩
    cases hdead : deadSet st rest with
    | true =>
      cases st with
      | set y e =>
        simp only [deadSet, Bool.and_eq_true] at hdead
        have hr : ∀ x ∈ D, x ∉ readsE e := fun x hx => (hD x hx).set.2.1
        have he : dceRec (.set y e :: rest) = dceRec rest := by
          simp [dceRec, deadSet, hdead.1, hdead.2]
        rw [he]
        intro fl s' h'
        simp only [execs, exec, bind_ok_iff] at h'
        obtain ⟨f1, s1, ⟨v, s2, h1, h2⟩, h3⟩ := h'
        obtain ⟨rfl, _⟩ := analyzable_eval e s t s2 v hdead.1
          (fun x hx => h.lookup fun hD => hr x hD hx) h1
        unfold doAssign at h2
        cases hv : s2.env.assign y v with
        | none => rw [hv] at h2; cases h2
        | some env =>
          rw [hv] at h2
          simp only [Prod.mk.injEq, Except.ok.injEq] at h2
          obtain ⟨rfl, rfl⟩ := h2
          refine ih K A _ _ t ht.2 hs' hl ?_ (h.assign1 hv) fl s' h3
          intro x hx
          rcases List.mem_cons.1 hx with rfl | hx
          · exact settled_good hs hdead.2
          · obtain ⟨hx, hne⟩ := List.mem_filter.1 hx
            exact (hD x hx).set.2.2 (by simpa using hne)
      | _ => simp [deadSet] at hdead
    | false =>
      have he : dceRec (st :: rest) = elimS st ++ dceRec rest := by simp [dceRec, hdead]
      rw [he]
      cases hDe : D with
      | nil =>
        subst hDe
        refine seqRec (dceS hc n st K A s t ht.1 hl h) (fun s t h => h) ?_
        rintro s t ⟨B, hB, h⟩
        exact weak hB (ih K B [] s t ht.2 hs' (hl.sh hB) (by simp) h)
      | cons x0 D0 =>
        have hx0 : x0 ∈ D := by rw [hDe]; simp
        clear hDe
        by_cases hset : ∃ y e, st = .set y e
        · obtain ⟨y, e, rfl⟩ := hset
          have hr : ∀ x ∈ D, x ∉ readsE e := fun x hx => (hD x hx).set.2.1
          have ha := (hD x0 hx0).set.1
          have hel : elimS (.set y e) = [.set y e] := rfl
          rw [hel]
          refine seqCont (Q := DR K A (D.filter (· ≠ y))) ?_ ?_ ?_
          · rw [execs_one]
            simp only [exec]
            exact fwd_pend ha hr h fun v => fwd_assign y v h
          · intro fl s' h'
            exact simple_cont (x := x0) (by simp [passes, callFree_eq, ha]) h'
          · intro s t h
            refine ih K A _ s t ht.2 hs' hl ?_ h
            intro x hx
            obtain ⟨hx, hne⟩ := List.mem_filter.1 hx
            exact (hD x hx).set.2.2 (by simpa using hne)
        · have hp : ∀ x ∈ D, passes x st = true ∧ x ∉ readsS st ∧ GoodScan x rest :=
            fun x hx => (hD x hx).pass fun e h => hset ⟨x, e, h⟩
          have hcont : ∀ fl s', exec I n st s = (.ok fl, s') → fl = .cont :=
            fun fl s' h' => simple_cont (hp x0 hx0).1 h'
          have hDr : ∀ x ∈ D, GoodScan x rest := fun x hx => (hp x hx).2.2
          have fin : Fwd (fun s t => ∃ B, Sh A B ∧ DR K B D s t) (exec I n st s)
              (execs I n (elimS st) t) →
              Fwd (DRS K A) (execs I n (st :: rest) s) (execs I n (elimS st ++ dceRec rest) t) := by
            intro h1
            refine seqCont h1 hcont ?_
            rintro s t ⟨B, hB, h⟩
            exact weak hB (ih K B D s t ht.2 hs' (hl.sh hB) hDr h)
          have same : ∀ {r r' : Res Flow}, Fwd (DR K A D) r r' →
              Fwd (fun s t => ∃ B, Sh A B ∧ DR K B D s t) r r' :=
            fun h => fwd_mono h fun s t h => ⟨A, Sh.refl A, h⟩
          have hp0 := (hp x0 hx0).1
          apply fin
          cases st with
          | letS y m u e =>
            have hel : elimS (.letS y m u e) = [.letS y m u e] := rfl
            rw [hel, execs_one]
            simp only [exec]
            simp only [passes, Bool.and_eq_true, callFree_eq] at hp0
            refine fwd_pend hp0.2 (fun x hx => (hp x hx).2.1) h fun v => ?_
            unfold doDefine
            refine fwd_ret _ ⟨_, Sh.decl _ _ _, h.define ?_ v hl⟩
            intro hy
            have := (hp y hy).1
            simp [passes] at this
          | set y e => exact absurd ⟨y, e, rfl⟩ hset
          | showS e =>
            have hel : elimS (.showS e) = [.showS e] := rfl
            rw [hel, execs_one]
            simp only [exec]
            simp only [passes, callFree_eq] at hp0
            exact same (fwd_pend hp0 (fun x hx => (hp x hx).2.1) h fun v => fwd_show _ v h)
          | assertS e =>
            have hel : elimS (.assertS e) = [.assertS e] := rfl
            rw [hel, execs_one]
            simp only [exec]
            simp only [passes, callFree_eq] at hp0
            exact same (fwd_pend hp0 (fun x hx => (hp x hx).2.1) h fun v => fwd_assert _ v h)
          | push y e =>
            have hel : elimS (.push y e) = [.push y e] := rfl
            rw [hel, execs_one]
            simp only [exec]
            simp only [passes, callFree_eq] at hp0
            refine same (fwd_pend hp0 (fun x hx hx' => (hp x hx).2.1 (by simp [readsS, hx'])) h
              fun v => fwd_push y v ?_ h)
            intro hy
            exact (hp y hy).2.1 (by simp [readsS])
          | funDef f ps b =>
            have hel : elimS (.funDef f ps b) = [.funDef f ps (dceBlock b)] := rfl
            rw [hel, execs_one]
            simp only [exec]
            have htb : Tidy b := by
              have := ht.1
              simp only [tidyS] at this
              exact this
            have hr : FnRel ⟨ps.map Prod.fst, b⟩ ⟨ps.map Prod.fst, dceBlock b⟩ :=
              ⟨rfl, .inr ⟨htb, rfl⟩⟩
            exact same (fwd_ret _ (h.defFun f hr))
          | _ => simp [passes] at hp0
end

/-! ## Calls -/

theorem bindParams_dr {K : Scopes} (hS : K.S = []) (hS' : K.S' = []) : ∀ (ps : List Sym)
    (vs : List Value) (s t : State), DR K [] [] s t →
    DR K [] [] (s.withEnv (bindParams ps vs)) (t.withEnv (bindParams ps vs))
  | [], vs, s, t, h => by simpa [bindParams, State.withEnv] using h
  | p :: ps, [], s, t, h => by simpa [bindParams, State.withEnv] using h
  | p :: ps, v :: vs, s, t, h => by
    have h1 := h.define (x := p) (by simp) v (.inr ⟨hS, hS'⟩)
    exact bindParams_dr hS hS' ps vs _ _ h1

/-- The scopes inside a call. -/
def Scopes.call (K : Scopes) (A : List (List (Sym × Option Value))) (l : VMap) : Scopes :=
  ⟨(l, A ++ K.S) :: K.F, (l, A ++ K.S') :: K.F', [], [], rfl⟩

theorem fwd_inFrame {α : Type} {K : Scopes} {A : List (List (Sym × Option Value))} {s t : State}
    {setup : Env → Env} {f g : State → Res α}
    (hset : ∀ K' s t, K'.S = [] → K'.S' = [] → DR K' [] [] s t →
      DR K' [] [] (s.withEnv setup) (t.withEnv setup))
    (hfg : ∀ K' s t, K'.S = [] → K'.S' = [] → DR K' [] [] s t → Fwd (DRS K' []) (f s) (g t))
    (h : DR K A [] s t) : Fwd (DR K A []) (inFrame setup f s) (inFrame setup g t) := by
  unfold inFrame
  have h0 : DR (K.call A s.env.locals) [] [] (s.withEnv (·.pushFrame)) (t.withEnv (·.pushFrame)) :=
    .mk0 (by simp [State.withEnv, Env.pushFrame, Scopes.call, h.saves, h.frames])
      (by simp [State.withEnv, Env.pushFrame, Scopes.call, h.saves', h.frames', h.locEq])
      rfl rfl h.globEq h.mainEq rfl h.out h.clos h.funs
  refine fwd_bind (Q := DRS (K.call A s.env.locals) []) (hfg _ _ _ rfl rfl (hset _ _ _ rfl rfl h0)) ?_
  rintro a s1 t1 ⟨B, hB, h1⟩
  have hB := hB.nil_right
  subst hB
  refine fwd_ret _ ?_
  have e1 : s1.env.popFrame = { s1.env with frames := K.F, locals := s.env.locals, saves := A ++ K.S } := by
    unfold Env.popFrame; rw [h1.frames]; rfl
  have e2 : t1.env.popFrame = { t1.env with frames := K.F', locals := s.env.locals, saves := A ++ K.S' } := by
    unfold Env.popFrame; rw [h1.frames']; rfl
  simp only [State.withEnv, e1, e2]
  exact .mk0 rfl rfl rfl rfl h1.globEq h1.mainEq rfl h1.out h1.clos h1.funs

/-- Calls agree at every fuel. -/
theorem dce_calls {P : Prims} {ap : BinOp → Value → Value → Except Err Value}
    {rd : Sym → Value → Bool} : ∀ n, CallsFwd (inst P ap rd n)
  | 0 => by intro K A x y vs s t _ _ a s' h; cases h
  | n + 1 => by
    have ih := dce_calls (P := P) (ap := ap) (rd := rd) n
    intro K A x y vs s t hxy h
    cases hxy with
    | @fn a b hab =>
      show Fwd _ (invokeFun (inst P ap rd n) n a vs s) (invokeFun (inst P ap rd n) n b vs t)
      unfold invokeFun
      rw [← hab.1]
      refine fwd_inFrame (fun K' s t h1 h2 h => bindParams_dr h1 h2 _ _ s t h) ?_ h
      intro K' s t h1 h2 h
      refine fwd_bind (Q := DRS K' []) ?_ fun fl s t h => fwd_ret _ h
      rcases hab.2 with hb | ⟨ht, hb⟩
      · rw [hb]; exact rawSs ih n a.body K' [] s t (.inl (.inr ⟨h1, h2⟩)) h
      · rw [hb, dceBlock_eq, truncRet_execs]
        exact dceSs ih n a.body K' [] [] s t ht.1 ht.2 (.inr ⟨h1, h2⟩) (by simp) h
    | clo i =>
      show Fwd _ (invokeClo (inst P ap rd n) i vs s) (invokeClo (inst P ap rd n) i vs t)
      unfold invokeClo
      rw [← h.clos]
      split
      · exact fwd_ret _ h
      · rename_i c _
        split
        · refine fwd_inFrame ?_ ?_ h
          · intro K' s t h1 h2 h
            have hb : DR K' [] [] (s.withEnv (bindCaptured c.captured))
                (t.withEnv (bindCaptured c.captured)) :=
              .mk0 h.frames h.frames' h.saves h.saves' h.globEq h.mainEq rfl h.out h.clos h.funs
            exact bindParams_dr h1 h2 _ _ _ _ hb
          · intro K' s t h1 h2 h
            exact fwd_mono (fwdE ih _ s t h) fun s t h => h.drs
        · exact fwd_ret _ h

/-- A tidy program that ends without an error does the same without its dead code. -/
theorem dce_run {P : Prims} {n : Nat} {p : List Stmt} (ht : Tidy p) (h : (run P n p).error = none) :
    run P n (dceBlock p) = run P n p := by
  unfold run at h ⊢
  rw [dceBlock_eq, truncRet_execs]
  rcases hr : execs (plain P n) n p {} with ⟨r, s'⟩
  rw [hr] at h
  cases r with
  | error e => simp [outcome] at h
  | ok fl =>
    have h0 : DR ⟨[], [], [], [], rfl⟩ [] [] ({} : State) {} :=
      .mk0 rfl rfl rfl rfl rfl rfl rfl rfl rfl (fun f => .inl ⟨rfl, rfl⟩)
    obtain ⟨t', h1, B, _, h2⟩ := dceSs (dce_calls (P := P) n) n p ⟨[], [], [], [], rfl⟩ [] [] {} {}
      ht.1 ht.2 (.inr ⟨rfl, rfl⟩) (by simp) h0 fl s' hr
    have h1 : execs (plain P n) n (dceRec p) {} = (.ok fl, t') := h1
    rw [h1]
    simp [outcome, h2.out]

end Verif.Lang
