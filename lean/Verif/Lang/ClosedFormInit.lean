import Verif.Lang.ClosedFormDefer
/-! # The initial values the pass reads off the statements before a loop -/
namespace Verif.Lang.CF

open Verif.Lang Verif.Lang.Symm

variable {I : Inst}

theorem quiet_eval {e : Expr} (h : Quiet e) : ∀ s : State, ∃ r, evalE I e s = (r, s) := by
  induction h with
  | lit l => intro s; exact ⟨_, by simp only [evalE]; rfl⟩
  | var z =>
    intro s
    simp only [evalE, evVar]
    split
    · split_ifs
      · exact ⟨_, rfl⟩
      · exact ⟨_, rfl⟩
    · exact ⟨_, rfl⟩
  | @bin op a b _ _ ha hb =>
    intro s
    obtain ⟨ra, ha⟩ := ha s
    obtain ⟨rb, hb⟩ := hb s
    simp only [evalE, evBin]
    cases ra with
    | error x => split <;> exact ⟨_, by simp only [ha, Res.bind]; rfl⟩
    | ok va =>
      cases rb with
      | error x =>
        split
        · cases ht : truthy I.P va <;> exact ⟨_, by simp only [ha, Res.bind, ht, boolOut, hb, if_true, Bool.false_eq_true, if_false]; rfl⟩
        · cases ht : truthy I.P va <;> exact ⟨_, by simp only [ha, Res.bind, ht, boolOut, hb, if_true, Bool.false_eq_true, if_false]; rfl⟩
        · exact ⟨_, by simp only [ha, hb, Res.bind]; rfl⟩
      | ok vb =>
        split
        · cases ht : truthy I.P va <;> exact ⟨_, by simp only [ha, Res.bind, ht, boolOut, hb, if_true, Bool.false_eq_true, if_false]; rfl⟩
        · cases ht : truthy I.P va <;> exact ⟨_, by simp only [ha, Res.bind, ht, boolOut, hb, if_true, Bool.false_eq_true, if_false]; rfl⟩
        · exact ⟨_, by simp only [ha, hb, Res.bind, lift]; rfl⟩
  | not _ ha =>
    intro s
    obtain ⟨ra, ha⟩ := ha s
    cases ra <;> exact ⟨_, by simp only [evalE, ha, Res.bind]; rfl⟩
  | index _ _ ha hb =>
    intro s
    obtain ⟨ra, ha⟩ := ha s
    obtain ⟨rb, hb⟩ := hb s
    cases ra <;> cases rb <;> exact ⟨_, by simp only [evalE, ha, hb, Res.bind, lift]; rfl⟩
  | length _ ha =>
    intro s
    obtain ⟨ra, ha⟩ := ha s
    cases ra <;> exact ⟨_, by simp only [evalE, ha, Res.bind, lift]; rfl⟩
  | @list es _ hs =>
    intro s
    have : ∃ r, evalEs I es s = (r, s) := by
      clear * - hs
      induction es with
      | nil => exact ⟨_, by simp only [evalEs]; rfl⟩
      | cons e es ih =>
        obtain ⟨r, h1⟩ := hs e (by simp) s
        obtain ⟨r', h2⟩ := ih fun e he => hs e (by simp [he])
        cases r <;> cases r' <;> exact ⟨_, by simp only [evalEs, h1, h2, Res.bind]; rfl⟩
    obtain ⟨r, h⟩ := this
    cases r <;> exact ⟨_, by simp only [evalE, h, Res.bind]; rfl⟩

/-- Outside every function and block there are no variables of blocks. -/
def Tidy (e : Env) : Prop := e.frames = [] → e.saves = [] → ∀ x, e.mainBlock x = none

theorem tidy_define {e : Env} (h : Tidy e) (x : Sym) (v : Value) : Tidy (e.define x v) := by
  unfold Tidy Env.define at *
  split_ifs with h1 h2
  · intro hf; simp_all
  · intro hf hs
    cases hsv : e.saves <;> simp_all [recordSave]
  · exact h

theorem tidy_assign {e e' : Env} (h : Tidy e) {x : Sym} {v : Value} (ha : e.assign x v = some e') : Tidy e' := by
  unfold Tidy Env.assign at *
  split_ifs at ha with h1 h2 h3
  · cases ha; intro hf; simp_all
  · cases ha
    intro hf hs
    simp_all
  · cases ha; exact h

theorem tidy_lookup {e : Env} (h : Tidy e) (x : Sym) (v : Value) : (e.define x v).lookup x = some v := by
  unfold Tidy Env.define Env.lookup at *
  cases hf : e.frames <;> cases hs : e.saves <;> simp_all [VMap.put]

theorem define_lookup (e : Env) {x y : Sym} (hne : y ≠ x) (v : Value) : (e.define x v).lookup y = e.lookup y := by
  unfold Env.define Env.lookup
  cases hf : e.frames <;> cases hs : e.saves <;> simp_all [VMap.put]

theorem assign_lookup {e e' : Env} {x : Sym} {v : Value} (ha : e.assign x v = some e') :
    e'.lookup x = some v ∧ ∀ y, y ≠ x → e'.lookup y = e.lookup y := by
  unfold Env.assign at ha
  unfold Env.lookup
  split_ifs at ha with h1 h2 h3
  · cases ha; simp_all [VMap.put]
  · cases ha; simp_all [VMap.put]
  · cases ha
    cases hf : e.frames <;> simp_all [VMap.put]

/-- What a quiet statement that goes on does to variables. -/
def Moved (I : Inst) (s s' : State) : Stmt → Prop
  | .letS x _ _ e => (∃ v, evalE I e s = (.ok v, s) ∧ s'.env.lookup x = some v) ∧ ∀ y, y ≠ x → s'.env.lookup y = s.env.lookup y
  | .set x e => (∃ v, evalE I e s = (.ok v, s) ∧ s'.env.lookup x = some v) ∧ ∀ y, y ≠ x → s'.env.lookup y = s.env.lookup y
  | .push x _ => (∃ xs, s.env.lookup x = some (.list xs)) ∧ ∀ y, y ≠ x → s'.env.lookup y = s.env.lookup y
  | _ => ∀ y, s'.env.lookup y = s.env.lookup y

theorem quiet_step {n : Nat} {st : Stmt} (h : QuietStmt st) {s s' : State} (hr : exec I n st s = (.ok .cont, s')) (ht : Tidy s.env) :
    Tidy s'.env ∧ Moved I s s' st := by
  cases h with
  | letS x b m he =>
    obtain ⟨r, h⟩ := quiet_eval (I := I) he s
    cases r with
    | error _ => simp [exec, h, Res.bind] at hr
    | ok v =>
      simp only [exec, h, Res.bind, doDefine, Prod.mk.injEq, true_and] at hr
      subst hr
      exact ⟨tidy_define ht _ _, ⟨v, h, tidy_lookup ht _ _⟩, fun y hy => define_lookup _ hy _⟩
  | set x he =>
    obtain ⟨r, h⟩ := quiet_eval (I := I) he s
    cases r with
    | error _ => simp [exec, h, Res.bind] at hr
    | ok v =>
      simp only [exec, h, Res.bind, doAssign] at hr
      split at hr
      · rename_i e' ha
        simp only [Prod.mk.injEq, true_and] at hr
        subst hr
        exact ⟨tidy_assign ht ha, ⟨v, h, (assign_lookup ha).1⟩, (assign_lookup ha).2⟩
      · simp at hr
  | showS he =>
    obtain ⟨r, h⟩ := quiet_eval (I := I) he s
    cases r with
    | error _ => simp [exec, h, Res.bind] at hr
    | ok v =>
      simp only [exec, h, Res.bind, doShow, Prod.mk.injEq, true_and] at hr
      subst hr
      exact ⟨ht, fun _ => rfl⟩
  | assertS he =>
    obtain ⟨r, h⟩ := quiet_eval (I := I) he s
    cases r with
    | error _ => simp [exec, h, Res.bind] at hr
    | ok v =>
      simp only [exec, h, Res.bind, doAssert] at hr
      split_ifs at hr
      · simp only [Prod.mk.injEq, true_and] at hr
        subst hr
        exact ⟨ht, fun _ => rfl⟩
      · simp at hr
  | push x he =>
    obtain ⟨r, h⟩ := quiet_eval (I := I) he s
    cases r with
    | error _ => simp [exec, h, Res.bind] at hr
    | ok v =>
      simp only [exec, h, Res.bind, doPush] at hr
      split at hr
      · rename_i xs hx
        simp only [doAssign] at hr
        split at hr
        · rename_i e' ha
          simp only [Prod.mk.injEq, true_and] at hr
          subst hr
          exact ⟨tidy_assign ht ha, ⟨xs, hx⟩, (assign_lookup ha).2⟩
        · simp at hr
      · simp at hr
      · simp at hr
  | funDef f ps b =>
    simp only [exec, Prod.mk.injEq, true_and] at hr
    subst hr
    exact ⟨ht, fun _ => rfl⟩

theorem execs_snoc {n : Nat} {st : Stmt} : ∀ {l : List Stmt} {s s' : State}, execs I n (l ++ [st]) s = (.ok .cont, s') →
    ∃ t, execs I n l s = (.ok .cont, t) ∧ exec I n st t = (.ok .cont, s') := by
  intro l
  induction l with
  | nil =>
    intro s s' h
    refine ⟨s, by simp [execs], ?_⟩
    simp only [List.nil_append, execs] at h
    cases hx : exec I n st s with
    | mk r t => cases r with
      | error _ => simp [hx, Res.bind] at h
      | ok fl => cases fl <;> simp_all [Res.bind]
  | cons a l ih =>
    intro s s' h
    simp only [List.cons_append, execs] at h ⊢
    cases hx : exec I n a s with
    | mk r t => cases r with
      | error _ => simp [hx, Res.bind] at h
      | ok fl => cases fl with
        | cont => simp only [hx, Res.bind] at h ⊢; exact ih h
        | brk => simp [hx, Res.bind] at h
        | ret _ => simp [hx, Res.bind] at h

theorem num_spec {e : Expr} {k : Int} (h : number e = some k) : e = int k := by
  unfold number at h
  split at h
  · cases h; rfl
  · cases h

theorem init_run {n : Nat} {x : Sym} {k : Int} : ∀ (l : List Stmt) {s s' : State}, (∀ st ∈ l, QuietStmt st) → Tidy s.env →
    execs I n l.reverse s = (.ok .cont, s') → Tidy s'.env ∧ (initIn l x = some k → s'.env.lookup x = some (.int k)) := by
  intro l
  induction l with
  | nil =>
    intro s s' _ ht h
    simp only [List.reverse_nil, execs, Prod.mk.injEq, true_and] at h
    subst h
    exact ⟨ht, by simp [initIn]⟩
  | cons st l ih =>
    intro s s' hq ht h
    rw [List.reverse_cons] at h
    obtain ⟨t, h1, h2⟩ := execs_snoc h
    obtain ⟨tt, hi⟩ := ih (fun a ha => hq a (by simp [ha])) ht h1
    have hs := quiet_step (hq st (by simp)) h2 tt
    refine ⟨hs.1, ?_⟩
    have hqs := hq st (by simp)
    cases hqs with
    | letS y b m he =>
      intro hk
      simp only [initIn] at hk
      split_ifs at hk with hy
      · subst hy
        obtain ⟨v, h3, h4⟩ := hs.2.1
        rw [num_spec hk] at h3
        simp only [evalE, int, litVal, Prod.mk.injEq, Except.ok.injEq, and_true] at h3
        rw [h4, ← h3]
      · rw [hs.2.2 x (fun e => hy e.symm)]
        exact hi hk
    | set y he =>
      intro hk
      simp only [initIn] at hk
      split_ifs at hk with hy
      · subst hy
        obtain ⟨v, h3, h4⟩ := hs.2.1
        rw [num_spec hk] at h3
        simp only [evalE, int, litVal, Prod.mk.injEq, Except.ok.injEq, and_true] at h3
        rw [h4, ← h3]
      · rw [hs.2.2 x (fun e => hy e.symm)]
        exact hi hk
    | showS he => intro hk; rw [hs.2 x]; exact hi hk
    | assertS he => intro hk; rw [hs.2 x]; exact hi hk
    | funDef f ps b => intro hk; rw [hs.2 x]; exact hi hk
    | push y he =>
      intro hk
      have h5 := hi hk
      by_cases hy : x = y
      · subst hy
        obtain ⟨xs, h6⟩ := hs.2.1
        rw [h5] at h6
        cases h6
      · rw [hs.2.2 x hy]
        exact h5

theorem findInit_run {n : Nat} {l : List Stmt} {s s' : State} (hq : ∀ st ∈ l, QuietStmt st) (ht : Tidy s.env)
    (h : execs I n l s = (.ok .cont, s')) {x : Sym} {k : Int} (hk : findInit l x = some k) : s'.env.lookup x = some (.int k) := by
  refine (init_run (I := I) (n := n) (k := k) l.reverse (s := s) (s' := s') (fun st hs => hq st (by simpa using hs)) ht (by simpa using h)).2 hk

/-- A simple expression is as steady as the variables it reads. -/
theorem simple_eval {x y : Sym} {e : Expr} (h : Simple x y e) {s : State} : ∀ (t : State), (∀ z, z ≠ x → z ≠ y → t.env.lookup z = s.env.lookup z) →
    ∃ r, evalE I e s = (r, s) ∧ evalE I e t = (r, t) := by
  intro t ht
  induction h with
  | lit l => exact ⟨_, by simp only [evalE]; trivial⟩
  | @var z h1 h2 =>
    simp only [evalE, evVar, ht z h1 h2]
    split
    · split_ifs
      · exact ⟨_, rfl, rfl⟩
      · exact ⟨_, rfl, rfl⟩
    · exact ⟨_, rfl, rfl⟩
  | @bin op a b _ _ ha hb =>
    obtain ⟨ra, a1, a2⟩ := ha
    obtain ⟨rb, b1, b2⟩ := hb
    simp only [evalE, evBin]
    cases ra with
    | error _ => split <;> exact ⟨_, by simp only [a1, a2, Res.bind]; exact ⟨rfl, rfl⟩⟩
    | ok va =>
      cases rb with
      | error _ =>
        split
        · cases hv : truthy I.P va <;> exact ⟨_, by simp only [a1, a2, b1, b2, Res.bind, hv, boolOut, if_true, Bool.false_eq_true, if_false]; exact ⟨rfl, rfl⟩⟩
        · cases hv : truthy I.P va <;> exact ⟨_, by simp only [a1, a2, b1, b2, Res.bind, hv, boolOut, if_true, Bool.false_eq_true, if_false]; exact ⟨rfl, rfl⟩⟩
        · exact ⟨_, by simp only [a1, a2, b1, b2, Res.bind]; exact ⟨rfl, rfl⟩⟩
      | ok vb =>
        split
        · cases hv : truthy I.P va <;> exact ⟨_, by simp only [a1, a2, b1, b2, Res.bind, hv, boolOut, if_true, Bool.false_eq_true, if_false]; exact ⟨rfl, rfl⟩⟩
        · cases hv : truthy I.P va <;> exact ⟨_, by simp only [a1, a2, b1, b2, Res.bind, hv, boolOut, if_true, Bool.false_eq_true, if_false]; exact ⟨rfl, rfl⟩⟩
        · exact ⟨_, by simp only [a1, a2, b1, b2, Res.bind, lift]; exact ⟨rfl, rfl⟩⟩
  | not _ ha =>
    obtain ⟨ra, a1, a2⟩ := ha
    cases ra <;> exact ⟨_, by simp only [evalE, a1, a2, Res.bind]; exact ⟨rfl, rfl⟩⟩
  | index _ _ ha hb =>
    obtain ⟨ra, a1, a2⟩ := ha
    obtain ⟨rb, b1, b2⟩ := hb
    cases ra <;> cases rb <;> exact ⟨_, by simp only [evalE, a1, a2, b1, b2, Res.bind, lift]; exact ⟨rfl, rfl⟩⟩
  | length _ ha =>
    obtain ⟨ra, a1, a2⟩ := ha
    cases ra <;> exact ⟨_, by simp only [evalE, a1, a2, Res.bind, lift]; exact ⟨rfl, rfl⟩⟩

theorem simple_steady {x y : Sym} {e : Expr} (h : Simple x y e) {s s' : State} {N : Int} (he : evalE I e s = (.ok (.int N), s')) : Steady I e N s x y := by
  intro t _ _ ht
  obtain ⟨r, h1, h2⟩ := simple_eval (I := I) h t ht
  rw [he] at h1
  cases h1
  exact h2

end Verif.Lang.CF
