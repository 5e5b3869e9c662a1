import Verif.Lang.ClosedFormInit
/-! # The recursions the pass solves -/
namespace Verif.Lang.CF

open Verif.Lang Verif.Lang.Symm

variable {P : Prims} {inv : Target → List Value → State → Res Value}

/-- The frame of a call with one number. -/
def fr (st : State) (p : Sym) (x : Int) : State := withLocals (inside st) (bound [p] [.int x] (fun _ => none)) []

theorem fr_var (st : State) (p : Sym) (x : Int) : evalE (over P inv) (.var p) (fr st p x) = (.ok (.int x), fr st p x) := by
  apply ev_name
  simp [fr, withLocals, bound, Env.lookup, VMap.put, inside, State.withEnv, Env.pushFrame]

theorem in128_spec {n m : Int} (h : in128 n = some m) : m = n := by
  unfold in128 at h
  split_ifs at h
  simpa using h.symm

theorem affine_eval {p : Sym} : ∀ {e : Expr} {a b : Int}, affineOf e p = some (a, b) → ∀ (st : State) (x : Int),
    evalE (over P inv) e (fr st p x) = (.ok (.int (a * x + b)), fr st p x)
  | .var y, a, b, h, st, x => by
    simp only [affineOf] at h
    split_ifs at h with hy
    subst hy
    cases h
    rw [fr_var]
    simp
  | .lit (.num k), a, b, h, st, x => by
    simp only [affineOf] at h
    cases h
    have := ev_num (P := P) (inv := inv) (k := k) (t := fr st p x)
    simp only [int] at this
    rw [this]
    simp
  | .bin op l r, a, b, h, st, x => by
    simp only [affineOf] at h
    split at h
    swap
    · cases h
    rename_i a1 b1 a2 b2 h1 h2
    have e1 := affine_eval h1 st x
    have e2 := affine_eval h2 st x
    cases op <;> simp only [reduceCtorEq] at h
    · simp only [Option.bind_eq_bind, Option.bind_eq_some_iff, Option.pure_def, Option.some.injEq, Prod.mk.injEq] at h
      obtain ⟨u, hu, w, hw, rfl, rfl⟩ := h
      rw [in128_spec hu, in128_spec hw, ev2 (op := .add) (by decide) e1 e2 (op_add P _ _)]
      congr 3
      ring
    · simp only [Option.bind_eq_bind, Option.bind_eq_some_iff, Option.pure_def, Option.some.injEq, Prod.mk.injEq] at h
      obtain ⟨u, hu, w, hw, rfl, rfl⟩ := h
      rw [in128_spec hu, in128_spec hw, ev2 (op := .sub) (by decide) e1 e2 (op_sub P _ _)]
      congr 3
      ring
    · split_ifs at h with z1 z2
      · simp only [Option.bind_eq_bind, Option.bind_eq_some_iff, Option.pure_def, Option.some.injEq, Prod.mk.injEq] at h
        obtain ⟨u, hu, w, hw, rfl, rfl⟩ := h
        subst z1
        rw [in128_spec hu, in128_spec hw, ev2 (op := .mul) (by decide) e1 e2 (op_mul P _ _)]
        congr 3
        ring
      · simp only [Option.bind_eq_bind, Option.bind_eq_some_iff, Option.pure_def, Option.some.injEq, Prod.mk.injEq] at h
        obtain ⟨u, hu, w, hw, rfl, rfl⟩ := h
        subst z2
        rw [in128_spec hu, in128_spec hw, ev2 (op := .mul) (by decide) e1 e2 (op_mul P _ _)]
        congr 3
        ring
  | .lit (.flt _), _, _, h, _, _ => by simp [affineOf] at h
  | .lit (.text _), _, _, h, _, _ => by simp [affineOf] at h
  | .lit (.bool _), _, _, h, _, _ => by simp [affineOf] at h
  | .lit .nothing, _, _, h, _, _ => by simp [affineOf] at h
  | .not _, _, _, h, _, _ => by simp [affineOf] at h
  | .call .., _, _, h, _, _ => by simp [affineOf] at h
  | .callv .., _, _, h, _, _ => by simp [affineOf] at h
  | .list _, _, _, h, _, _ => by simp [affineOf] at h
  | .index .., _, _, h, _, _ => by simp [affineOf] at h
  | .length _, _, _, h, _, _ => by simp [affineOf] at h
  | .closure .., _, _, h, _, _ => by simp [affineOf] at h

theorem ret_run {n : Nat} {p : Sym} {e : Expr} {rest : List Stmt} {st : State} {x v : Int}
    (h : evalE (over P inv) e (fr st p x) = (.ok (.int v), fr st p x)) :
    invokeFun (over P inv) n ⟨[p], .ret (some e) :: rest⟩ [.int x] st = (.ok (.int v), st) :=
  call_returns (L' := bound [p] [.int x] (fun _ => none)) (exs_ret (ex_ret h))

theorem fr_scope {n : Nat} {p : Sym} {e : Expr} {st : State} {x v : Int}
    (h : ∀ sv, evalE (over P inv) e (withLocals (inside st) (bound [p] [.int x] (fun _ => none)) sv) =
      (.ok (.int v), withLocals (inside st) (bound [p] [.int x] (fun _ => none)) sv)) :
    inScope (execs (over P inv) n [.ret (some e)]) (fr st p x) = (.ok (.ret (.int v)), fr st p x) := by
  have h1 := in_scope (inside_frames st) (f := execs (over P inv) n [.ret (some e)]) (L := bound [p] [.int x] (fun _ => none)) (sv := []) (sc := [])
    (exs_ret (ex_ret (h _)))
  simpa [undo, fr] using h1

theorem if_ret {n : Nat} {p : Sym} {c e : Expr} {rest : List Stmt} {st : State} {x v : Int}
    (hc : evalE (over P inv) c (fr st p x) = (.ok (.bool true), fr st p x))
    (h : ∀ sv, evalE (over P inv) e (withLocals (inside st) (bound [p] [.int x] (fun _ => none)) sv) =
      (.ok (.int v), withLocals (inside st) (bound [p] [.int x] (fun _ => none)) sv)) :
    invokeFun (over P inv) n ⟨[p], .ifS c [.ret (some e)] [] :: rest⟩ [.int x] st = (.ok (.int v), st) := by
  apply call_returns (L' := bound [p] [.int x] (fun _ => none))
  apply exs_ret
  have := ex_if (P := P) (inv := inv) (n := n) (t := [.ret (some e)]) (e := []) hc
  rw [if_pos rfl, fr_scope h] at this
  exact this

theorem if_skip {n : Nat} {p : Sym} {c : Expr} {t rest : List Stmt} {st : State} {x : Int}
    (hc : evalE (over P inv) c (fr st p x) = (.ok (.bool false), fr st p x)) :
    invokeFun (over P inv) n ⟨[p], .ifS c t [] :: rest⟩ [.int x] st = invokeFun (over P inv) n ⟨[p], rest⟩ [.int x] st := by
  have h := ex_if (P := P) (inv := inv) (n := n) (t := t) (e := []) hc
  simp only [Bool.false_eq_true, if_false, scope_nil] at h
  have e : st.withEnv (fun e => bindParams [p] [.int x] e.pushFrame) = fr st p x := by
    simp only [State.withEnv]
    rw [bind_bound _ _ _ (by simp [Env.pushFrame]) (by simp [Env.pushFrame])]
    rfl
  simp only [invokeFun, inFrame, e]
  rw [exs_cons h]

theorem eqZero_eval {c : Expr} {p : Sym} (h : isEqZero c p = true) (st : State) (x : Int) :
    evalE (over P inv) c (fr st p x) = (.ok (.bool (decide (x = 0))), fr st p x) := by
  unfold isEqZero at h
  split at h
  · simp only [Bool.and_eq_true, beq_iff_eq] at h
    obtain ⟨rfl, rfl⟩ := h
    exact ev2 (by decide) (fr_var st _ x) (ev_num (k := 0)) (by simp [applyOp, valEq, beq_eq_decide])
  · simp only [Bool.and_eq_true, beq_iff_eq] at h
    obtain ⟨rfl, rfl⟩ := h
    refine ev2 (by decide) (ev_num (k := 0)) (fr_var st _ x) ?_
    simp only [applyOp, valEq, beq_eq_decide, eq_comm]
  · cases h

variable {F : Sym → Option Fun}

/-- A call by name of a function that answers. -/
theorem answers_call {f : Sym} {x v : Int} (h : Answers P F f x v) : ∃ m0, ∀ m, m0 ≤ m → ∀ (st : State) (a : Expr), st.funs = F →
    evalE (plain P m) a st = (.ok (.int x), st) → evalE (plain P m) (.call f [a]) st = (.ok (.int v), st) := by
  obtain ⟨fd, hF, hp, hb, m0, hm⟩ := h
  refine ⟨m0, fun m hle st a hst ha => ?_⟩
  exact ev_call (P := P) (inv := invokeN P (applyOp P) (fun _ _ => true) m) hb (by rw [hst, hF]) (by simp [hp]) (evs_cons ha evs_nil) (hm m hle st hst)

/-- What a solved form says of its function. -/
def Right (P : Prims) (F : Sym → Option Fun) (f : Sym) : Solved → Prop
  | .affine a b => 0 ≤ a → 0 ≤ b → ∀ n : Nat, Answers P F f n (a * n + b)
  | .geo2 s q => 0 ≤ q → q ≤ s → ∀ n : Nat, Answers P F f n (s * 2 ^ n - q)

theorem direct_right {f p : Sym} {body : List Stmt} {form : Solved} (hF : F f = some ⟨[p], body⟩) (hb : P.builtin f = none)
    (h : directForm body p = some form) : Right P F f form := by
  unfold directForm at h
  split at h
  swap
  · cases h
  rename_i e
  cases ha : affineOf e p with
  | none => simp [ha] at h
  | some ab =>
    obtain ⟨a, b⟩ := ab
    simp only [ha, Option.map_some, Option.some.injEq] at h
    subst h
    intro _ _ n
    refine ⟨_, hF, rfl, hb, 1, fun m hm st _ => ?_⟩
    obtain ⟨m, rfl⟩ : ∃ k, m = k + 1 := ⟨m - 1, by omega⟩
    exact ret_run (affine_eval ha st n)

theorem base_spec {body : List Stmt} {p : Sym} {k : Int} {wrap : Expr} (h : baseAndWrap body p = some (k, wrap)) :
    ∃ c, body = [.ifS c [.ret (some (int k))] [], .ret (some wrap)] ∧ isEqZero c p = true := by
  unfold baseAndWrap at h
  split at h
  swap
  · cases h
  rename_i c k' wrap'
  split_ifs at h with hz
  cases h
  exact ⟨c, rfl, hz⟩

theorem selfDec_spec {e : Expr} {self p : Sym} (h : isSelfDec e self p = true) : e = .call self [.bin .sub (.var p) (int 1)] := by
  unfold isSelfDec at h
  split at h
  · simp only [Bool.and_eq_true, beq_iff_eq] at h
    obtain ⟨⟨rfl, rfl⟩, rfl⟩ := h
    rfl
  · cases h

/-- A recursion whose step is a known map answers with the iterates of the map. -/
theorem recursion_run {f p : Sym} {c wrap : Expr} {k : Int} {v : Nat → Int} (hF : F f = some ⟨[p], [.ifS c [.ret (some (int k))] [], .ret (some wrap)]⟩)
    (hb : P.builtin f = none) (hz : isEqZero c p = true) (h0 : v 0 = k)
    (hstep : ∀ n : Nat, Answers P F f n (v n) → ∃ m0, ∀ m, m0 ≤ m → ∀ st : State, st.funs = F →
      evalE (plain P m) wrap (fr st p (n + 1)) = (.ok (.int (v (n + 1))), fr st p (n + 1))) (n : Nat) : Answers P F f n (v n) := by
  induction n with
  | zero =>
    refine ⟨_, hF, rfl, hb, 1, fun m hm st _ => ?_⟩
    obtain ⟨m, rfl⟩ : ∃ k, m = k + 1 := ⟨m - 1, by omega⟩
    rw [h0]
    exact if_ret (eqZero_eval hz st 0) fun sv => ev_num
  | succ n ih =>
    obtain ⟨m0, hm0⟩ := hstep n ih
    refine ⟨_, hF, rfl, hb, m0 + 1, fun m hm st hst => ?_⟩
    obtain ⟨m, rfl⟩ : ∃ k, m = k + 1 := ⟨m - 1, by omega⟩
    have hc := eqZero_eval (P := P) (inv := invokeN P (applyOp P) (fun _ _ => true) m) hz st ((n : Int) + 1)
    rw [decide_eq_false (by omega)] at hc
    have := if_skip (n := m) (t := [.ret (some (int k))]) (rest := [.ret (some wrap)]) hc
    push_cast
    refine Eq.trans this (ret_run (hm0 m (by omega) st hst))

theorem recursive_right {f p : Sym} {body : List Stmt} {form : Solved} {t : Table} (hF : F f = some ⟨[p], body⟩) (hb : P.builtin f = none)
    (ht : ∀ g fm, t.get g = some fm → Right P F g fm) (h : recursiveForm body f p t = some form) : Right P F f form := by
  unfold recursiveForm at h
  split at h
  · cases h
  rename_i c0 wrap hbw
  obtain ⟨c, rfl, hz⟩ := base_spec hbw
  split at h
  swap
  · cases h
  rename_i pc q hw
  -- the step, as a map of the value before it
  have dec : ∀ (m : Nat) (st : State) (n : Nat), evalE (plain P m) (.bin .sub (.var p) (int 1)) (fr st p ((n : Int) + 1)) =
      (.ok (.int n), fr st p ((n : Int) + 1)) := by
    intro m st n
    have := ev2 (P := P) (inv := invokeN P (applyOp P) (fun _ _ => true) m) (op := .sub) (by decide) (fr_var st p ((n : Int) + 1)) (ev_num (k := 1)) (op_sub P _ _)
    rw [show (n : Int) + 1 - 1 = n by omega] at this
    exact this
  have hfr : ∀ (st : State) (x : Int), st.funs = F → (fr st p x).funs = F := fun st x h => h
  have step : 0 ≤ pc → 0 ≤ q → ∀ (v : Nat → Int), (∀ n, 0 ≤ v n) → (∀ n, v (n + 1) = pc * v n + q) → ∀ n : Nat, Answers P F f n (v n) →
      ∃ m0, ∀ m, m0 ≤ m → ∀ st : State, st.funs = F → evalE (plain P m) wrap (fr st p (n + 1)) = (.ok (.int (v (n + 1))), fr st p (n + 1)) := by
    intro hpc hq v hv hvs n ha
    obtain ⟨m1, h1⟩ := answers_call ha
    unfold wrapForm at hw
    split_ifs at hw with hs
    · cases hw
      refine ⟨m1, fun m hm st hst => ?_⟩
      rw [selfDec_spec hs, h1 m hm _ _ (hfr st _ hst) (dec m st n), hvs]
      simp
    · split at hw
      swap
      · cases hw
      rename_i g a
      split_ifs at hw with hs2
      split at hw
      swap
      · cases hw
      rename_i a' b' hg
      cases hw
      have hr := ht g _ hg hpc hq (v n).toNat
      rw [Int.toNat_of_nonneg (hv n)] at hr
      obtain ⟨m2, h2⟩ := answers_call hr
      refine ⟨max m1 m2, fun m hm st hst => ?_⟩
      have e1 := h1 m (by omega) (fr st p ((n : Int) + 1)) _ (hfr st _ hst) (dec m st n)
      rw [selfDec_spec hs2, h2 m (by omega) _ _ (hfr st _ hst) e1, hvs]
  split_ifs at h with p1 p2
  · cases h
    intro ha hb0 n
    refine recursion_run (v := fun n => q * n + c0) hF hb hz (by simp) (step (by omega) ha _ (fun n => by positivity) fun n => ?_) n
    subst p1
    push_cast
    ring
  · cases hs : in128 (c0 + q) with
    | none => simp [hs] at h
    | some s =>
      simp only [hs, Option.map_some, Option.some.injEq] at h
      subst h
      obtain rfl := in128_spec hs
      intro hq hc n
      refine recursion_run (v := fun n => (c0 + q) * 2 ^ n - q) hF hb hz (by simp) (step (by omega) hq _ (fun n => ?_) fun n => ?_) n
      · have : (1 : Int) ≤ 2 ^ n := one_le_pow₀ (by omega)
        have := le_mul_pow (a := c0 + q) (by omega) this
        omega
      · subst p2
        rw [pow_succ]
        ring

theorem get_append {t : Table} {f g : Sym} {fm fm' : Solved} (h : Table.get (t ++ [(f, fm)]) g = some fm') : t.get g = some fm' ∨ g = f ∧ fm' = fm := by
  unfold Table.get at *
  rw [List.find?_append] at h
  cases ht : t.find? (·.1 == g) with
  | some x => rw [ht] at h; exact Or.inl h
  | none =>
    rw [ht, Option.none_or] at h
    by_cases hg : f = g
    · subst hg
      right
      simpa [eq_comm] using h
    · simp [hg] at h

/-- The functions of the program are the ones in force. -/
def InForce (P : Prims) (F : Sym → Option Fun) (prog : List Stmt) : Prop :=
  ∀ f p b body, .funDef f [(p, b)] body ∈ prog → F f = some ⟨[p], body⟩ ∧ P.builtin f = none

theorem solveOne_right {isInt : Sym → Bool} {prog : List Stmt} (hF : InForce P F prog) {t : Table} {st : Stmt} (hst : st ∈ prog)
    (ht : ∀ g fm, t.get g = some fm → Right P F g fm) : ∀ g fm, (solveOne isInt t st).get g = some fm → Right P F g fm := by
  intro g fm h
  unfold solveOne at h
  split at h
  swap
  · exact ht g fm h
  rename_i f p b body
  obtain ⟨h1, h2⟩ := hF f p b body hst
  split_ifs at h
  · exact ht g fm h
  split at h
  swap
  · exact ht g fm h
  rename_i form hform
  rcases get_append h with h | ⟨rfl, rfl⟩
  · exact ht g fm h
  · rcases Option.or_eq_some_iff.1 hform with h' | ⟨_, h'⟩
    · exact direct_right h1 h2 h'
    · exact recursive_right h1 h2 ht h'

theorem solveAll_right {isInt : Sym → Bool} {prog : List Stmt} (hF : InForce P F prog) : ∀ g fm, (solveAll isInt prog).get g = some fm → Right P F g fm := by
  have inner : ∀ (l : List Stmt) (t : Table), (∀ st ∈ l, st ∈ prog) → (∀ g fm, t.get g = some fm → Right P F g fm) →
      ∀ g fm, (l.foldl (solveOne isInt) t).get g = some fm → Right P F g fm := by
    intro l
    induction l with
    | nil => intro t _ ht; exact ht
    | cons st l ih =>
      intro t hl ht
      exact ih _ (fun s hs => hl s (by simp [hs])) (solveOne_right hF (hl st (by simp)) ht)
  have outer : ∀ (r : List Nat) (t : Table), (∀ g fm, t.get g = some fm → Right P F g fm) →
      ∀ g fm, (r.foldl (fun t _ => prog.foldl (solveOne isInt) t) t).get g = some fm → Right P F g fm := by
    intro r
    induction r with
    | nil => intro t ht; exact ht
    | cons _ r ih => intro t ht; exact ih _ (inner prog t (fun _ h => h) ht)
  exact outer _ [] (by simp [Table.get])

/-- The value of a form. -/
def Solved.at (form : Solved) (n : Nat) : Int :=
  match form with
  | .affine a b => a * n + b
  | .geo2 s q => s * 2 ^ n - q

/-- The forms the compiler uses, but for a doubling recursion that starts below 0. -/
def Solved.up : Solved → Prop
  | .affine a b => 0 ≤ a ∧ 0 ≤ b
  | .geo2 s q => 0 ≤ q ∧ q ≤ s

theorem right_at {f : Sym} {form : Solved} (h : Right P F f form) (hu : form.up) (n : Nat) : Answers P F f n (form.at n) := by
  cases form with
  | affine a b => exact h hu.1 hu.2 n
  | geo2 s q => exact h hu.1 hu.2 n

theorem formula_eval {form : Solved} {p : Sym} {N : Int} {e : Expr} (h : formula form p = some (N, e)) {n : Nat} (hn : (n : Int) ≤ N) {st : State}
    (hp : st.env.lookup p = some (.int n)) : evalE (over P inv) e st = (.ok (.int (form.at n)), st) := by
  have hv : evalE (over P inv) (.var p) st = (.ok (.int n), st) := ev_name hp
  unfold formula at h
  split at h
  · rename_i a b
    split_ifs at h with h1 ha hb hb <;> cases h <;> simp only [Solved.at]
    · subst ha hb
      simpa using hv
    · subst ha
      rw [one_mul]
      exact ev2 (by decide) hv ev_num (op_add P _ _)
    · subst hb
      rw [add_zero]
      exact ev2 (by decide) ev_num hv (op_mul P _ _)
    · exact ev2 (by decide) (ev2 (op := .mul) (by decide) ev_num hv (op_mul P _ _)) ev_num (op_add P _ _)
  · rename_i s q
    have hs : ∀ (_ : ¬ (s ≤ 0 ∨ q < 0 ∨ s > 2 ^ 63 - 1 ∨ q > 2 ^ 63 - 1)) (_ : (n : Int) ≤ geoMax s),
        evalE (over P inv) (.bin .shl (int s) (.var p)) st = (.ok (.int (s * 2 ^ n)), st) := by
      intro h1 hn
      obtain ⟨k1, k2⟩ := shiftMax_spec (init := s) (by omega) (k := n) hn
      exact ev2 (by decide) ev_num hv (op_shl P (by omega) k2 k1)
    split_ifs at h with h1 h2 hb <;> cases h <;> simp only [Solved.at]
    · subst hb
      rw [sub_zero]
      exact hs h1 hn
    · exact ev2 (by decide) (hs h1 hn) ev_num (op_sub P _ _)

theorem lookup_bound (st : State) (p : Sym) (x : Int) (sv) :
    (withLocals (inside st) (bound [p] [.int x] (fun _ => none)) sv).env.lookup p = some (.int x) := by
  simp [withLocals, bound, Env.lookup, VMap.put, inside, State.withEnv, Env.pushFrame]

/-- The guarded body: the value of the form, or the body as it was. -/
theorem guarded_body {form : Solved} {p : Sym} {body body' : List Stmt} (h : guardedBody form p body = some body') (x : Int) :
    (∃ n : Nat, x = n ∧ ∀ (inv : Target → List Value → State → Res Value) (m : Nat) (st : State),
      invokeFun (over P inv) m ⟨[p], body'⟩ [.int x] st = (.ok (.int (form.at n)), st)) ∨
    ∀ (inv : Target → List Value → State → Res Value) (m : Nat) (st : State),
      invokeFun (over P inv) m ⟨[p], body'⟩ [.int x] st = invokeFun (over P inv) m ⟨[p], body⟩ [.int x] st := by
  unfold guardedBody at h
  split at h
  · cases h
  rename_i N e he
  split_ifs at h with hN
  cases h
  have hc : ∀ (inv : Target → List Value → State → Res Value) (st : State),
      evalE (over P inv) (.bin .and (.bin .ge (.var p) (int 0)) (.bin .le (.var p) (int (min N (2 ^ 63 - 1))))) (fr st p x) =
        (.ok (.bool (decide (x ≥ 0) && decide (x ≤ min N (2 ^ 63 - 1)))), fr st p x) := fun inv st =>
    ev_and (ev2 (by decide) (fr_var st p x) ev_num (op_ge P _ _)) (ev2 (by decide) (fr_var st p x) ev_num (op_le P _ _))
  by_cases hx : x ≥ 0 ∧ x ≤ min N (2 ^ 63 - 1)
  · left
    obtain ⟨n, rfl⟩ : ∃ n : Nat, x = n := ⟨x.toNat, by omega⟩
    refine ⟨n, rfl, fun inv m st => ?_⟩
    have h1 := hc inv st
    rw [decide_eq_true hx.1, decide_eq_true hx.2] at h1
    exact if_ret h1 fun sv => formula_eval he (le_trans hx.2 (min_le_left _ _)) (lookup_bound st p n sv)
  · right
    intro inv m st
    have h1 := hc inv st
    have h2 : (decide (x ≥ 0) && decide (x ≤ min N (2 ^ 63 - 1))) = false := by
      rw [Bool.and_eq_false_iff, decide_eq_false_iff_not, decide_eq_false_iff_not]
      tauto
    rw [h2] at h1
    exact if_skip h1

theorem formula_up {form : Solved} {p : Sym} {N : Int} {e : Expr} (h : formula form p = some (N, e)) (h0 : 0 ≤ form.at 0) : form.up := by
  unfold formula at h
  split at h <;> split_ifs at h <;> simp only [Solved.up, Solved.at] at * <;> omega

/-- A form found for a body with a base case starts with the base case, if no other function has the name. -/
theorem solved_base {isInt : Sym → Bool} {prog : List Stmt} {f : Sym} {fm : Solved} (h : (solveAll isInt prog).get f = some fm) :
    ∃ p b body, .funDef f [(p, b)] body ∈ prog ∧ (directForm body p = some fm ∨ ∃ t, recursiveForm body f p t = some fm) := by
  have inner : ∀ (l : List Stmt) (t : Table), (∀ st ∈ l, st ∈ prog) →
      (∀ g fm, t.get g = some fm → ∃ p b body, .funDef g [(p, b)] body ∈ prog ∧ (directForm body p = some fm ∨ ∃ t, recursiveForm body g p t = some fm)) →
      ∀ g fm, (l.foldl (solveOne isInt) t).get g = some fm →
        ∃ p b body, .funDef g [(p, b)] body ∈ prog ∧ (directForm body p = some fm ∨ ∃ t, recursiveForm body g p t = some fm) := by
    intro l
    induction l with
    | nil => intro t _ ht; exact ht
    | cons st l ih =>
      intro t hl ht
      refine ih _ (fun s hs => hl s (by simp [hs])) ?_
      intro g fm h
      unfold solveOne at h
      split at h
      swap
      · exact ht g fm h
      rename_i f p b body
      split_ifs at h
      · exact ht g fm h
      split at h
      swap
      · exact ht g fm h
      rename_i form hform
      rcases get_append h with h | ⟨rfl, rfl⟩
      · exact ht g fm h
      · refine ⟨p, b, body, hl _ (by simp), ?_⟩
        rcases Option.or_eq_some_iff.1 hform with h' | ⟨_, h'⟩
        · exact Or.inl h'
        · exact Or.inr ⟨_, h'⟩
  have outer : ∀ (r : List Nat) (t : Table),
      (∀ g fm, t.get g = some fm → ∃ p b body, .funDef g [(p, b)] body ∈ prog ∧ (directForm body p = some fm ∨ ∃ t, recursiveForm body g p t = some fm)) →
      ∀ g fm, (r.foldl (fun t _ => prog.foldl (solveOne isInt) t) t).get g = some fm →
        ∃ p b body, .funDef g [(p, b)] body ∈ prog ∧ (directForm body p = some fm ∨ ∃ t, recursiveForm body g p t = some fm) := by
    intro r
    induction r with
    | nil => intro t ht; exact ht
    | cons _ r ih => intro t ht; exact ih _ (inner prog t (fun _ h => h) ht)
  exact outer _ [] (by simp [Table.get]) _ _ h

theorem recursive_base {f p : Sym} {body : List Stmt} {t : Table} {fm : Solved} {k : Int} {w : Expr} (hb : baseAndWrap body p = some (k, w))
    (h : recursiveForm body f p t = some fm) : fm.at 0 = k := by
  unfold recursiveForm at h
  rw [hb] at h
  simp only at h
  split at h
  swap
  · cases h
  rename_i pc q hw
  split_ifs at h
  · cases h
    simp [Solved.at]
  · cases hs : in128 (k + q) with
    | none => simp [hs] at h
    | some s =>
      simp only [hs, Option.map_some, Option.some.injEq] at h
      subst h
      obtain rfl := in128_spec hs
      simp [Solved.at]

theorem recursion_sound {isInt : Sym → Bool} {prog : List Stmt} (hF : InForce P F prog) {f p : Sym} {b : Bool} {body body' : List Stmt}
    (hm : .funDef f [(p, b)] body ∈ prog) (h : solveFun (solveAll isInt prog) (.funDef f [(p, b)] body) = .funDef f [(p, b)] body')
    (h0 : ∀ c k w, body = [.ifS c [.ret (some (int k))] [], .ret (some w)] → 0 ≤ k) (x : Int) :
    (∃ v, Answers P F f x v ∧ ∀ (inv : Target → List Value → State → Res Value) (m : Nat) (st : State),
      invokeFun (over P inv) m ⟨[p], body'⟩ [.int x] st = (.ok (.int v), st)) ∨
    ∀ (inv : Target → List Value → State → Res Value) (m : Nat) (st : State),
      invokeFun (over P inv) m ⟨[p], body'⟩ [.int x] st = invokeFun (over P inv) m ⟨[p], body⟩ [.int x] st := by
  unfold solveFun at h
  simp only at h
  split at h
  swap
  · simp only [Stmt.funDef.injEq, true_and] at h
    subst h
    exact Or.inr fun _ _ _ => rfl
  rename_i b2 hb2
  simp only [Stmt.funDef.injEq, true_and] at h
  subst h
  obtain ⟨form, hform, hg⟩ := Option.bind_eq_some_iff.1 hb2
  split_ifs at hg with hbw
  obtain ⟨⟨k, w⟩, hkw⟩ := Option.isSome_iff_exists.1 hbw
  obtain ⟨c, rfl, hz⟩ := base_spec hkw
  rcases guarded_body (P := P) hg x with ⟨n, rfl, hn⟩ | hr
  swap
  · exact Or.inr hr
  left
  refine ⟨_, right_at (solveAll_right hF f form hform) ?_ n, hn⟩
  unfold guardedBody at hg
  split at hg
  · cases hg
  rename_i N e he
  refine formula_up he ?_
  obtain ⟨p', b', body', hm', hf⟩ := solved_base hform
  have e1 := (hF f p b _ hm).1
  rw [(hF f p' b' body' hm').1] at e1
  simp only [Option.some.injEq, Fun.mk.injEq, List.cons.injEq, and_true] at e1
  obtain ⟨rfl, rfl⟩ := e1
  rcases hf with hf | ⟨t, hf⟩
  · simp [directForm] at hf
  · rw [recursive_base hkw hf]
    exact h0 c k w rfl

theorem formula_word {form : Solved} {p : Sym} {N : Int} {e : Expr} (h : formula form p = some (N, e)) {n : Nat} (hn : (n : Int) ≤ N)
    (h63 : (n : Int) ≤ 2 ^ 63 - 1) : InWord p n e (form.at n) := by
  have hv : InWord p n (.var p) n := .var ⟨by omega, by omega⟩
  unfold formula at h
  split at h
  · rename_i a b
    have key : ∀ (_ : ¬ (a ≤ 0 ∨ b < 0 ∨ a > 2 ^ 63 - 1 ∨ b > 2 ^ 63 - 1)), (n : Int) ≤ (2 ^ 63 - 1 - b) / a → 0 ≤ a * n ∧ a * n + b ≤ 2 ^ 63 - 1 := by
      intro h1 h2
      have h3 := (Int.le_ediv_iff_mul_le (show 0 < a by omega)).1 h2
      rw [mul_comm] at h3
      exact ⟨mul_nonneg (by omega) (by omega), by omega⟩
    split_ifs at h with h1 ha hb hb <;> cases h <;> simp only [Solved.at] <;> obtain ⟨k1, k2⟩ := key h1 hn
    · subst ha hb
      simpa using hv
    · subst ha
      rw [one_mul] at *
      exact .add hv (.lit ⟨by omega, by omega⟩) ⟨by omega, by omega⟩
    · subst hb
      rw [add_zero] at *
      exact .mul (.lit ⟨by omega, by omega⟩) hv ⟨by omega, by omega⟩
    · exact .add (.mul (.lit ⟨by omega, by omega⟩) hv ⟨by omega, by omega⟩) (.lit ⟨by omega, by omega⟩) ⟨by omega, by omega⟩
  · rename_i s q
    have hs : ∀ (_ : ¬ (s ≤ 0 ∨ q < 0 ∨ s > 2 ^ 63 - 1 ∨ q > 2 ^ 63 - 1)) (_ : (n : Int) ≤ geoMax s),
        InWord p n (.bin .shl (int s) (.var p)) (s * 2 ^ n) ∧ 0 ≤ s * 2 ^ n ∧ s * 2 ^ n < 2 ^ 63 := by
      intro h1 hn
      obtain ⟨k1, k2⟩ := shiftMax_spec (init := s) (by omega) (k := n) hn
      have k3 : 0 ≤ s * 2 ^ n := mul_nonneg (by omega) (by positivity)
      exact ⟨.shl (.lit ⟨by omega, by omega⟩) hv (by omega) ⟨by omega, k2⟩, k3, k2⟩
    split_ifs at h with h1 h2 hb <;> cases h <;> simp only [Solved.at] <;> obtain ⟨k1, k2, k3⟩ := hs h1 hn
    · subst hb
      rw [sub_zero]
      exact k1
    · exact .sub k1 (.lit ⟨by omega, by omega⟩) ⟨by omega, by omega⟩

theorem guarded_word {form : Solved} {p : Sym} {body body' : List Stmt} (h : guardedBody form p body = some body') :
    ∃ N e, 0 ≤ N ∧ Word N ∧
      body' = .ifS (.bin .and (.bin .ge (.var p) (int 0)) (.bin .le (.var p) (int N))) [.ret (some e)] [] :: body ∧
      ∀ n : Nat, (n : Int) ≤ N → InWord p n e (form.at n) := by
  unfold guardedBody at h
  split at h
  · cases h
  rename_i N e he
  split_ifs at h with hN
  cases h
  exact ⟨_, e, by omega, ⟨by omega, by omega⟩, rfl, fun n hn => formula_word he (by omega) (by omega)⟩

theorem untouched {isInt : Sym → Bool} {prog : List Stmt} {f : Sym} (h : isInt f = false) : (solveAll isInt prog).get f = none := by
  have inner : ∀ (l : List Stmt) (t : Table), t.get f = none → (l.foldl (solveOne isInt) t).get f = none := by
    intro l
    induction l with
    | nil => intro t ht; exact ht
    | cons st l ih =>
      intro t ht
      refine ih _ ?_
      unfold solveOne
      split
      swap
      · exact ht
      rename_i g p b body
      split_ifs with hg
      · exact ht
      split
      swap
      · exact ht
      rename_i form _
      cases hx : Table.get (t ++ [(g, form)]) f with
      | none => rfl
      | some fm =>
        rcases get_append hx with h' | ⟨rfl, _⟩
        · rw [ht] at h'; cases h'
        · simp [h] at hg
  have outer : ∀ (r : List Nat) (t : Table), t.get f = none → (r.foldl (fun t _ => prog.foldl (solveOne isInt) t) t).get f = none := by
    intro r
    induction r with
    | nil => intro t ht; exact ht
    | cons _ r ih => intro t ht; exact ih _ (inner prog t ht)
  exact outer _ [] (by simp [Table.get])

/-! ## Calls that never end -/

/-- The evaluation ends in an error. -/
def Fails {α : Type} (r : Res α) : Prop := ∃ e s, r = (.error e, s)

theorem call_fails {f : Sym} {fd : Fun} {st : State} {a : Expr} (hb : P.builtin f = none) (hf : st.funs f = some fd) (hp : fd.params.length = 1)
    (h : Fails (evalE (over P inv) a st)) : Fails (evalE (over P inv) (.call f [a]) st) := by
  obtain ⟨e, s', h⟩ := h
  refine ⟨e, s', ?_⟩
  have h1 : evalEs (over P inv) [a] st = (.error e, s') := by simp [evalEs, h, Res.bind]
  simp only [evalE, evCall]
  simp only [over] at h1 ⊢
  simp [hb, hf, hp, h1, Res.bind]

theorem call_fails' {f : Sym} {fd : Fun} {st : State} {a : Expr} {x : Int} (hb : P.builtin f = none) (hf : st.funs f = some fd) (hp : fd.params.length = 1)
    (ha : evalE (over P inv) a st = (.ok (.int x), st)) (h : Fails (inv (.fn fd) [.int x] st)) : Fails (evalE (over P inv) (.call f [a]) st) := by
  rw [ev_call hb hf (by simp [hp]) (evs_cons ha evs_nil) rfl]
  exact h

theorem ret_fails {n : Nat} {p : Sym} {e : Expr} {rest : List Stmt} {st : State} {x : Int} (h : Fails (evalE (over P inv) e (fr st p x))) :
    Fails (invokeFun (over P inv) n ⟨[p], .ret (some e) :: rest⟩ [.int x] st) := by
  obtain ⟨er, s', h⟩ := h
  have e : st.withEnv (fun e => bindParams [p] [.int x] e.pushFrame) = fr st p x := by
    simp only [State.withEnv]
    rw [bind_bound _ _ _ (by simp [Env.pushFrame]) (by simp [Env.pushFrame])]
    rfl
  refine ⟨er, s', ?_⟩
  simp only [invokeFun, inFrame, e, execs, exec, h, Res.bind]

/-- A recursion down to 0 never ends below 0. -/
theorem below_fails {g step p : Sym} {c : Expr} {t : List Stmt} {fd : Fun} {gfd : Fun}
    (hgfd : gfd = ⟨[p], [.ifS c t [], .ret (some (.call step [.call g [.bin .sub (.var p) (int 1)]]))]⟩)
    (hz : isEqZero c p = true) (hg : P.builtin g = none) (hs : P.builtin step = none) (hFg : F g = some gfd) (hFs : F step = some fd)
    (hp : fd.params.length = 1) : ∀ (m : Nat) (x : Int) (st : State), x < 0 → st.funs = F →
      Fails (invokeN P (applyOp P) (fun _ _ => true) m (.fn gfd) [.int x] st)
  | 0, x, st, _, _ => ⟨_, _, rfl⟩
  | m + 1, x, st, hx, hst => by
    have ih := below_fails hgfd hz hg hs hFg hFs hp m (x - 1) (fr st p x) (by omega) hst
    have hc := eqZero_eval (P := P) (inv := invokeN P (applyOp P) (fun _ _ => true) m) hz st x
    rw [decide_eq_false (by omega)] at hc
    have hd := ev2 (P := P) (inv := invokeN P (applyOp P) (fun _ _ => true) m) (op := .sub) (by decide) (fr_var st p x) (ev_num (k := 1)) (op_sub P _ _)
    have h1 := ret_fails (n := m) (rest := []) (call_fails hs (show (fr st p x).funs step = some fd by rw [← hFs, ← hst]; rfl) hp
      (call_fails' hg (show (fr st p x).funs g = some gfd by rw [← hFg, ← hst]; rfl) (by rw [hgfd]; rfl) hd ih))
    rw [← if_skip (n := m) (t := t) hc] at h1
    subst hgfd
    exact h1

/-- A recursion on top of it that starts below 0 never ends at 1. -/
theorem start_fails {f g step p q : Sym} {c d : Expr} {k : Int} {t : List Stmt} {fd gfd ffd : Fun}
    (hffd : ffd = ⟨[q], [.ifS d [.ret (some (int k))] [], .ret (some (.call g [.call f [.bin .sub (.var q) (int 1)]]))]⟩)
    (hgfd : gfd = ⟨[p], [.ifS c t [], .ret (some (.call step [.call g [.bin .sub (.var p) (int 1)]]))]⟩) (hk : k < 0)
    (hz : isEqZero c p = true) (hz' : isEqZero d q = true) (hf : P.builtin f = none) (hg : P.builtin g = none) (hs : P.builtin step = none)
    (hFf : F f = some ffd) (hFg : F g = some gfd) (hFs : F step = some fd) (hp : fd.params.length = 1) (m : Nat) (st : State) (hst : st.funs = F) :
      Fails (invokeN P (applyOp P) (fun _ _ => true) m (.fn ffd) [.int 1] st) := by
  cases m with
  | zero => exact ⟨_, _, rfl⟩
  | succ m =>
    have hc := eqZero_eval (P := P) (inv := invokeN P (applyOp P) (fun _ _ => true) m) hz' st 1
    rw [decide_eq_false (by omega)] at hc
    have hd := ev2 (P := P) (inv := invokeN P (applyOp P) (fun _ _ => true) m) (op := .sub) (by decide) (fr_var st q 1) (ev_num (k := 1)) (op_sub P _ _)
    have Ff : (fr st q 1).funs f = some ffd := by rw [← hFf, ← hst]; rfl
    have Fg : (fr st q 1).funs g = some gfd := by rw [← hFg, ← hst]; rfl
    have lf : ffd.params.length = 1 := by rw [hffd]; rfl
    have lg : gfd.params.length = 1 := by rw [hgfd]; rfl
    have h1 : Fails (evalE (over P (invokeN P (applyOp P) (fun _ _ => true) m)) (.call g [.call f [.bin .sub (.var q) (int 1)]]) (fr st q 1)) := by
      cases m with
      | zero => exact call_fails hg Fg lg (call_fails' hf Ff lf hd ⟨_, _, rfl⟩)
      | succ m =>
        have hz2 := eqZero_eval (P := P) (inv := invokeN P (applyOp P) (fun _ _ => true) m) hz' (fr st q 1) (1 - 1)
        have h3 : invokeN P (applyOp P) (fun _ _ => true) (m + 1) (.fn ffd) [.int (1 - 1)] (fr st q 1) = (.ok (.int k), fr st q 1) := by
          subst hffd
          exact if_ret hz2 fun sv => ev_num
        have h4 := ev_call hf Ff (by simp [lf]) (evs_cons hd evs_nil) h3
        exact call_fails' hg Fg lg h4 (below_fails hgfd hz hg hs hFg hFs hp (m + 1) k (fr st q 1) hk hst)
    have h2 := ret_fails (n := m) (rest := []) h1
    rw [← if_skip (n := m) (t := [.ret (some (int k))]) hc] at h2
    subst hffd
    exact h2

end Verif.Lang.CF
