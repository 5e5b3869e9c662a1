import Verif.Lang.ClosedFormRun
import Verif.Lang.ClosedFormSpec
import Mathlib.Tactic.Ring
import Mathlib.Algebra.Ring.Int.Parity
/-! # The loops the pass replaces and what it puts in their place -/
namespace Verif.Lang.CF

open Verif.Lang Verif.Lang.Symm

variable {P : Prims} {inv : Target → List Value → State → Res Value} {s : State} {acc ctr : Sym}

/-! ## Expressions -/

theorem ev_num {k : Int} {t : State} : evalE (over P inv) (int k) t = (.ok (.int k), t) := by
  simp [evalE, int, litVal]

theorem steady_put2 {e : Expr} {N : Int} (h : Steady (over P inv) e N s acc ctr) (a c : Int) :
    evalE (over P inv) e (put2 s acc ctr a c) = (.ok (.int N), put2 s acc ctr a c) :=
  h _ rfl rfl fun _ h1 h2 => put2_other h1 h2 a c

theorem steady_push {e : Expr} {N : Int} (h : Steady (over P inv) e N s acc ctr) :
    Steady (over P inv) e N (s.withEnv (·.pushScope)) acc ctr := fun t h1 h2 h3 => h t h1 h2 h3

theorem steady_self {e : Expr} {N : Int} (h : Steady (over P inv) e N s acc ctr) : evalE (over P inv) e s = (.ok (.int N), s) :=
  h s rfl rfl fun _ _ _ => rfl

theorem ev2 {op : BinOp} {a b : Expr} {st : State} {x y : Int} {v : Value} (ho : op ≠ .and ∧ op ≠ .or)
    (ha : evalE (over P inv) a st = (.ok (.int x), st)) (hb : evalE (over P inv) b st = (.ok (.int y), st))
    (h : applyOp P op (.int x) (.int y) = .ok v) : evalE (over P inv) (.bin op a b) st = (.ok v, st) := ev_bin ho ha hb h

/-- The number one past the last the counter takes. -/
def past (N : Int) (incl : Bool) : Int := if incl then N + 1 else N

section
variable {lim : Expr} {N : Int} {t : State} (hl : evalE (over P inv) lim t = (.ok (.int N), t))
include hl

theorem ev_count (start : Int) (incl : Bool) :
    evalE (over P inv) (countExpr start lim incl) t = (.ok (.int (past N incl - start)), t) := by
  cases incl
  · exact ev2 (by decide) hl ev_num (op_sub P N start)
  · have := ev2 (P := P) (inv := inv) (op := .add) (by decide) (ev2 (op := .sub) (by decide) hl (ev_num (k := start)) (op_sub P N start)) (ev_num (k := 1)) (op_add P _ 1)
    simp only [countExpr, past, if_true]
    rw [this, show N - start + 1 = N + 1 - start by omega]

theorem ev_final (incl : Bool) : evalE (over P inv) (counterFinal lim incl) t = (.ok (.int (past N incl)), t) := by
  cases incl
  · exact hl
  · exact ev2 (by decide) hl ev_num (op_add P N 1)

theorem ev_runs (start : Int) (incl : Bool) :
    evalE (over P inv) (runsAtAll start lim incl) t = (.ok (.bool (decide (start < past N incl))), t) := by
  cases incl
  · exact ev2 (by decide) hl ev_num (op_gt P N start)
  · have := ev2 (P := P) (inv := inv) (op := .ge) (by decide) hl (ev_num (k := start)) (op_ge P N start)
    simp only [runsAtAll, past, if_true]
    rw [this]
    refine congrArg (fun b => (Except.ok (Value.bool b), t)) ?_
    rw [decide_eq_decide]
    omega

theorem even_div (x : Int) : (x * (x + 1)).tdiv 2 * 2 = x * (x + 1) := by
  obtain ⟨q, hq⟩ := Int.even_mul_succ_self x
  rw [hq, ← two_mul, Int.mul_tdiv_cancel_left q (by decide)]
  ring

theorem ev_gauss {start : Int} (hs : 1 ≤ start) (incl : Bool) :
    ∃ g : Int, evalE (over P inv) (gaussExpr start lim incl) t = (.ok (.int g), t) ∧
      2 * g = (past N incl - 1) * past N incl - (start - 1) * start := by
  obtain ⟨eff, he⟩ : ∃ e : Expr, e = (if incl then lim else .bin .sub lim (int 1)) := ⟨_, rfl⟩
  have h0 : evalE (over P inv) eff t = (.ok (.int (past N incl - 1)), t) := by
    subst he
    cases incl
    · exact ev2 (by decide) hl ev_num (op_sub P N 1)
    · simp only [past, if_true, hl]
      rw [show N + 1 - 1 = N by omega]
  have h1 := ev2 (op := .add) (by decide) h0 (ev_num (k := 1)) (op_add P _ _)
  have h2 := ev2 (op := .div) (by decide) (ev2 (op := .mul) (by decide) h0 h1 (op_mul P _ _)) (ev_num (k := 2)) (op_div P _)
  have e1 := even_div hl (past N incl - 1)
  have e2 := even_div hl (start - 1)
  rw [show start - 1 + 1 = start by omega] at e2
  rw [show past N incl - 1 + 1 = past N incl by omega] at e1 h2
  unfold gaussExpr
  simp only [← he]
  split_ifs with hs1
  · obtain rfl : start = 1 := by omega
    refine ⟨_, h2, ?_⟩
    omega
  · have h3 := ev2 (P := P) (inv := inv) (op := .div) (st := t) (by decide) (ev2 (op := .mul) (by decide) (ev_num (k := start - 1)) (ev_num (k := start)) (op_mul P _ _)) (ev_num (k := 2)) (op_div P _)
    refine ⟨_, ev2 (op := .sub) (by decide) h2 h3 (op_sub P _ _), ?_⟩
    omega
end

theorem ev_plusInit {e : Expr} {t : State} {x : Int} (init : Int) (h : evalE (over P inv) e t = (.ok (.int x), t)) :
    evalE (over P inv) (plusInit init e) t = (.ok (.int (init + x)), t) := by
  unfold plusInit
  split_ifs with h0
  · rw [h, h0, zero_add]
  · exact ev2 (by decide) ev_num h (op_add P _ _)

/-! ## What a number of rounds comes to -/

theorem rounds_sum {f : Int → Int → Int} (h : ∀ a c, f a c = a + c) : ∀ (k : Nat) (a c : Int), 2 * rounds f k a c = 2 * a + k * (2 * c + k - 1) := by
  intro k
  induction k with
  | zero => intro a c; simp [rounds]
  | succ k ih =>
    intro a c
    rw [rounds, ih, h]
    push_cast
    ring

theorem rounds_count {f : Int → Int → Int} (h : ∀ a c, f a c = a + 1) : ∀ (k : Nat) (a c : Int), rounds f k a c = a + k := by
  intro k
  induction k with
  | zero => intro a c; simp [rounds]
  | succ k ih =>
    intro a c
    rw [rounds, ih, h]
    push_cast
    ring

theorem rounds_double {f : Int → Int → Int} (h : ∀ a c, 0 ≤ a → a * 2 < 2 ^ 63 → f a c = a * 2) :
    ∀ (k : Nat) (a c : Int), 0 ≤ a → a * 2 ^ k < 2 ^ 63 → rounds f k a c = a * 2 ^ k := by
  intro k
  induction k with
  | zero => intro a c _ _; simp [rounds]
  | succ k ih =>
    intro a c h0 h1
    have e : a * 2 ^ (k + 1) = a * 2 * 2 ^ k := by rw [pow_succ]; ring
    have hp : (1 : Int) ≤ 2 ^ k := one_le_pow₀ (by omega)
    have h2 : a * 2 < 2 ^ 63 := lt_of_le_of_lt (le_mul_pow (by omega) hp) (e ▸ h1)
    rw [rounds, h a c h0 h2, ih _ _ (by omega) (e ▸ h1), e]

theorem shiftMax_spec {init : Int} (h0 : 0 ≤ init) {k : Nat} (hk : (k : Int) ≤ shiftMax init) : k < 63 ∧ init * 2 ^ k < 2 ^ 63 := by
  unfold shiftMax at hk
  set l := (List.range 63).takeWhile fun k => decide (init * 2 ^ k ≤ 2 ^ 63 - 1) with hl
  have h1 : k < l.length := by omega
  have h2 : l <+: List.range 63 := List.takeWhile_prefix _
  have h3 : l.length ≤ 63 := by simpa using h2.length_le
  refine ⟨by omega, ?_⟩
  have h4 : l[k] ∈ l := List.getElem_mem h1
  have h5 : l[k] = k := by
    have := h2.getElem h1
    rw [this]
    simp
  have h6 : l.all (fun k => decide (init * 2 ^ k ≤ 2 ^ 63 - 1)) = true := hl ▸ List.all_takeWhile
  have h7 := (List.all_eq_true.mp h6) _ h4
  rw [h5] at h7
  simp only [decide_eq_true_eq] at h7
  omega

/-! ## One round -/

/-- What the accumulation of each kind does in a round. -/
structure Step (P : Prims) (inv : Target → List Value → State → Res Value) (acc ctr : Sym) (v : Expr) (pat : Accum) (fA : Int → Int → Int)
    (ok : Int → Prop) : Prop where
  keep : ∀ a c, ok a → ok (fA a c)
  free : pat ≠ .mulByTwo → ∀ a, ok a
  start : ∀ a, narrow a = true → ok a
  ev : ∀ (s : State) a c, acc ≠ ctr → Has s acc ctr → ok a → evalE (over P inv) v (put2 s acc ctr a c) = (.ok (.int (fA a c)), put2 s acc ctr a c)
  same : v ≠ .bin .add (.var acc) (.var ctr) → ∀ a c c', fA a c = fA a c'
  sum : pat = .sumOfCounter → ∀ a c, fA a c = a + c
  count : pat = .count → ∀ a c, fA a c = a + 1
  dbl : pat = .mulByTwo → ∀ a c, 0 ≤ a → a * 2 < 2 ^ 63 → fA a c = a * 2

theorem narrow_bshl (a k : Int) : narrow (bshl a k) = true := narrow_word _

theorem step_of {v : Expr} {pat : Accum} (h : patternOf acc v ctr = some pat) : ∃ fA ok, Step P inv acc ctr v pat fA ok := by
  unfold patternOf at h
  split at h
  · split_ifs at h with hc
    obtain ⟨rfl, rfl⟩ := hc
    cases h
    exact ⟨fun a c => a + c, fun _ => True, ⟨by simp, by simp, by simp,
      fun s a c hne hh _ => ev2 (by decide) (ev_name (put2_acc hne hh a c)) (ev_name (put2_ctr hne hh a c)) (op_add P _ _),
      fun hv => absurd rfl hv, fun _ _ _ => rfl, by simp, by simp⟩⟩
  · split_ifs at h with hc
    obtain ⟨rfl, rfl⟩ := hc
    cases h
    exact ⟨fun a _ => a + 1, fun _ => True, ⟨by simp, by simp, by simp,
      fun s a c hne hh _ => ev2 (by decide) (ev_name (put2_acc hne hh a c)) ev_num (op_add P _ _),
      fun _ _ _ _ => rfl, by simp, fun _ _ _ => rfl, by simp⟩⟩
  · split_ifs at h with hc
    obtain ⟨rfl, rfl⟩ := hc
    cases h
    exact ⟨fun a _ => a * 2, fun _ => True, ⟨by simp, by simp, by simp,
      fun s a c hne hh _ => ev2 (by decide) (ev_name (put2_acc hne hh a c)) ev_num (op_mul P _ _),
      fun _ _ _ _ => rfl, by simp, by simp, fun _ _ _ _ _ => rfl⟩⟩
  · split_ifs at h with hc
    obtain ⟨rfl, rfl⟩ := hc
    cases h
    exact ⟨fun a _ => 2 * a, fun _ => True, ⟨by simp, by simp, by simp,
      fun s a c hne hh _ => ev2 (by decide) ev_num (ev_name (put2_acc hne hh a c)) (op_mul P _ _),
      fun _ _ _ _ => rfl, by simp, by simp, fun _ _ _ _ _ => mul_comm _ _⟩⟩
  · split_ifs at h with hc
    obtain ⟨rfl, rfl⟩ := hc
    cases h
    refine ⟨fun a _ => bshl a 1, fun a => narrow a = true, ⟨fun a c _ => narrow_bshl a 1, by simp, by simp,
      fun s a c hne hh hn => ev2 (by decide) (ev_name (put2_acc hne hh a c)) ev_num ?_,
      fun _ _ _ _ => rfl, by simp, by simp, ?_⟩⟩
    · simp [applyOp, shiftVals, hn, show narrow 1 = true by decide]
    · intro _ a c h0 h1
      have := op_shl P (k := 1) h0 (by simpa using h1) (by decide)
      have n1 : narrow a = true := by simp only [narrow, decide_eq_true_eq]; omega
      simp [applyOp, shiftVals, n1, show narrow 1 = true by decide] at this
      exact this
  · cases h

/-! ## The loop -/

/-- The two orders of a body. -/
def Body (acc ctr : Sym) (v inc : Expr) (body : List Stmt) : Prop :=
  body = [.set acc v, .set ctr inc] ∨ body = [.set ctr inc, .set acc v] ∧ v ≠ .bin .add (.var acc) (.var ctr)

theorem plusOne_eq {e : Expr} {x : Sym} (h : isPlusOne e x = true) : e = .bin .add (.var x) (int 1) := by
  unfold isPlusOne at h
  split at h
  · simp only [Bool.and_eq_true, beq_iff_eq] at h
    rw [h.1, h.2]
    rfl
  · cases h

theorem body_run {n : Nat} {v : Expr} {pat : Accum} {fA ok} (hne : acc ≠ ctr) (hh : Has s acc ctr) (hs : Step P inv acc ctr v pat fA ok)
    {body : List Stmt} (hb : Body acc ctr v (.bin .add (.var ctr) (int 1)) body) {a c : Int} (ha : ok a) :
    inScope (execs (over P inv) n body) (put2 s acc ctr a c) = (.ok .cont, put2 s acc ctr (fA a c) (c + 1)) := by
  apply block_put2
  have hh' := has_push hh
  have inc : ∀ a c, evalE (over P inv) (.bin .add (.var ctr) (int 1)) (put2 (s.withEnv (·.pushScope)) acc ctr a c) =
      (.ok (.int (c + 1)), put2 (s.withEnv (·.pushScope)) acc ctr a c) :=
    fun a c => ev2 (by decide) (ev_name (put2_ctr hne hh' a c)) ev_num (op_add P _ _)
  rcases hb with rfl | ⟨rfl, hv⟩
  · rw [exs_cons (set_acc hne hh' (hs.ev _ a c hne hh' ha)), exs_cons (set_ctr hne hh' (inc _ _))]
    simp [execs]
  · rw [exs_cons (set_ctr hne hh' (inc _ _)), exs_cons (set_acc hne hh' (hs.ev _ a (c + 1) hne hh' ha))]
    simp [execs, hs.same hv a (c + 1) c]

theorem cond_run {op : BinOp} {incl : Bool} (hop : op = if incl then .le else .lt) (hne : acc ≠ ctr) (hh : Has s acc ctr) {lim : Expr} {N : Int}
    (hl : Steady (over P inv) lim N s acc ctr) (a c : Int) :
    evalE (over P inv) (.bin op (.var ctr) lim) (put2 s acc ctr a c) = (.ok (.bool (decide (c < past N incl))), put2 s acc ctr a c) := by
  subst hop
  cases incl
  · exact ev2 (by decide) (ev_name (put2_ctr hne hh a c)) (steady_put2 hl a c) (op_lt P _ _)
  · have := ev2 (P := P) (inv := inv) (op := .le) (by decide) (ev_name (put2_ctr hne hh a c)) (steady_put2 hl a c) (op_le P c N)
    simp only [if_true]
    rw [this]
    refine congrArg (fun b => (Except.ok (Value.bool b), put2 s acc ctr a c)) ?_
    rw [decide_eq_decide]
    simp only [past, if_true]
    omega

theorem while_run {n : Nat} {op : BinOp} {incl : Bool} (hop : op = if incl then .le else .lt) {v : Expr} {pat : Accum} {fA ok} (hne : acc ≠ ctr)
    (hh : Has s acc ctr) (hs : Step P inv acc ctr v pat fA ok) {body : List Stmt} (hb : Body acc ctr v (.bin .add (.var ctr) (int 1)) body)
    {lim : Expr} {N : Int} (hl : Steady (over P inv) lim N s acc ctr) {a c : Int} (ha : ok a) (hn : (past N incl - c).toNat < n) :
    exec (over P inv) n (.whileS (.bin op (.var ctr) lim) body) (put2 s acc ctr a c) =
      (.ok .cont, put2 s acc ctr (rounds fA (past N incl - c).toNat a c) (max c (past N incl))) := by
  apply ex_while
  exact counted (lo := c) (ok := ok) (fun a c => cond_run hop hne hh hl a c) (fun a c h _ _ => hs.keep a c h)
    (fun a c h _ _ => body_run hne hh hs hb h) _ a c n ha (le_refl _) rfl hn

theorem ex_if {n : Nat} {c : Expr} {t e : List Stmt} {st : State} {b : Bool} (h : evalE (over P inv) c st = (.ok (.bool b), st)) :
    exec (over P inv) n (.ifS c t e) st = if b then inScope (execs (over P inv) n t) st else inScope (execs (over P inv) n e) st := by
  simp only [exec, h, Res.bind]
  cases b <;> simp [truthy]

theorem scope_nil {n : Nat} {st : State} : inScope (execs (over P inv) n []) st = (.ok .cont, st) := by
  simp [inScope, execs, Res.bind, pop_push_state]

theorem exs_one {n : Nat} {stm : Stmt} {a b : State} (h : exec (over P inv) n stm a = (.ok .cont, b)) : execs (over P inv) n [stm] a = (.ok .cont, b) := by
  rw [exs_cons h]
  simp [execs]

/-- The two assignments behind a test do what the loop does, if the value is right. -/
theorem guarded_run {n : Nat} (hne : acc ≠ ctr) (hh : Has s acc ctr) {lim : Expr} {N : Int} {incl : Bool} (hl : Steady (over P inv) lim N s acc ctr)
    {init start r : Int} {value : Expr} {pat : Accum}
    (hv : start < past N incl → ∀ a c, evalE (over P inv) value (put2 (s.withEnv (·.pushScope)) acc ctr a c) =
      (.ok (.int r), put2 (s.withEnv (·.pushScope)) acc ctr a c)) (hr : ¬ start < past N incl → r = init) :
    execs (over P inv) n (guarded ⟨acc, ctr, pat⟩ start lim incl value) (put2 s acc ctr init start) =
      (.ok .cont, put2 s acc ctr r (max start (past N incl))) := by
  apply exs_one
  rw [ex_if (ev_runs (steady_put2 hl init start) start incl)]
  by_cases h : start < past N incl
  · simp only [h, decide_true, if_true]
    apply block_put2
    have hh' := has_push hh
    rw [exs_cons (set_acc hne hh' (hv h _ _)), exs_one (set_ctr hne hh' (ev_final (steady_put2 (steady_push hl) _ _) incl)), max_eq_right (le_of_lt h)]
  · simp only [h, decide_false, Bool.false_eq_true, if_false, scope_nil, hr h, max_eq_left (not_lt.mp h)]

/-! ## The replacement -/

theorem ev_and {c d : Expr} {st : State} {b b' : Bool} (h : evalE (over P inv) c st = (.ok (.bool b), st))
    (h' : evalE (over P inv) d st = (.ok (.bool b'), st)) : evalE (over P inv) (.bin .and c d) st = (.ok (.bool (b && b')), st) := by
  simp only [evalE, evBin, h, Res.bind]
  cases b <;> simp [truthy, boolOut, h', Res.bind]

theorem candidate_spec {v inc : Expr} {op : BinOp} {lim : Expr} {body : List Stmt} {c : Candidate}
    (hb : body = [.set acc v, .set ctr inc] ∨ body = [.set ctr inc, .set acc v])
    (h : candidate body (.bin op (.var ctr) lim) = some c) :
    acc ≠ ctr ∧ inc = .bin .add (.var ctr) (int 1) ∧ c.accum = acc ∧ c.counter = ctr ∧ patternOf acc v ctr = some c.pattern := by
  have hne : acc ≠ ctr := by
    rintro rfl
    rcases hb with rfl | rfl <;> simp [candidate, sets, condCounter, setOrLet] at h
  have key : isPlusOne inc ctr = true ∧ (patternOf acc v ctr).map (fun pat => (⟨acc, ctr, pat⟩ : Candidate)) = some c := by
    rcases hb with rfl | rfl <;> simp [candidate, sets, condCounter, setOrLet, hne] at h <;> cases hi : isPlusOne inc ctr <;> simp_all
  obtain ⟨h1, h2⟩ := key
  cases hp : patternOf acc v ctr with
  | none => simp [hp] at h2
  | some pat =>
    simp only [hp, Option.map_some, Option.some.injEq] at h2
    subst h2
    exact ⟨hne, plusOne_eq h1, rfl, rfl, rfl⟩

theorem limit_spec {cond lim : Expr} {incl : Bool} {op : BinOp} (h : whileLimit (.bin op (.var ctr) cond) ctr = some (lim, incl)) :
    lim = cond ∧ op = if incl then .le else .lt := by
  unfold whileLimit at h
  split at h
  · rename_i heq
    cases heq
    simp at h
    simp [← h.1, ← h.2]
  · rename_i heq
    cases heq
    simp at h
    simp [← h.1, ← h.2]
  · cases h

theorem of_ite {α : Type} {c : Prop} [Decidable c] {x r : α} (h : (if c then some x else none) = some r) : c ∧ x = r := by
  split_ifs at h with hc
  exact ⟨hc, by simpa using h⟩

theorem of_not {α : Type} {c : Prop} [Decidable c] {x : Option α} {r : α} (h : (if c then none else x) = some r) : ¬ c ∧ x = some r := by
  split_ifs at h with hc
  exact ⟨hc, h⟩

theorem loop_sound {n : Nat} {v inc : Expr} {op : BinOp} {lim : Expr} {body before rep : List Stmt} {N : Int}
    (hb : Body acc ctr v inc body) (h : closeLoop (.bin op (.var ctr) lim) body before = some rep)
    (hinit : ∀ x k, findInit before x = some k → s.env.lookup x = some (.int k)) (hl : Steady (over P inv) lim N s acc ctr)
    (hn : ∀ k, s.env.lookup ctr = some (.int k) → (N + 1 - k).toNat < n) :
    execs (over P inv) n rep s = exec (over P inv) n (.whileS (.bin op (.var ctr) lim) body) s := by
  unfold closeLoop at h
  split at h
  · cases h
  rename_i c hc
  obtain ⟨hne, rfl, ha, hk, hp⟩ := candidate_spec (hb.imp_right And.left) hc
  obtain ⟨ca, cc, pat⟩ := c
  simp only at ha hk hp
  subst ha hk
  split at h
  swap
  · cases h
  rename_i lim' incl init start h1 h2 h3
  obtain ⟨rfl, hop⟩ := limit_spec h1
  have v1 := hinit _ _ h2
  have v2 := hinit _ _ h3
  have hh : Has s ca cc := ⟨⟨_, v1⟩, _, v2⟩
  have hs : put2 s ca cc init start = s := put2_id v1 v2
  have hn' : (past N incl - start).toNat < n := by
    have := hn start v2
    unfold past
    split_ifs <;> omega
  obtain ⟨fA, ok, st⟩ := step_of (P := P) (inv := inv) hp
  have hw : ∀ {t : State}, Has t ca cc → Steady (over P inv) lim' N t ca cc → ok init →
      exec (over P inv) n (.whileS (.bin op (.var cc) lim') body) (put2 t ca cc init start) =
        (.ok .cont, put2 t ca cc (rounds fA (past N incl - start).toNat init start) (max start (past N incl))) :=
    fun hh hl ho => while_run hop hne hh st hb hl ho hn'
  have zero : ¬ start < past N incl → rounds fA (past N incl - start).toNat init start = init := by
    intro hlt
    rw [show (past N incl - start).toNat = 0 by omega]
    rfl
  have push := steady_push hl
  cases pat with
  | count =>
    simp only at h
    split_ifs at h with hst
    cases h
    rw [← hs, hw hh hl (st.free (by decide) _)]
    refine guarded_run hne hh hl (fun hlt a c => ?_) zero
    rw [ev_plusInit init (ev_count (steady_put2 push a c) start incl), rounds_count (st.count rfl)]
    rw [show ((past N incl - start).toNat : Int) = past N incl - start by omega]
  | sumOfCounter =>
    simp only at h
    split_ifs at h with hst
    cases h
    rw [← hs, hw hh hl (st.free (by decide) _)]
    refine guarded_run hne hh hl (fun hlt a c => ?_) zero
    obtain ⟨g, e1, e2⟩ := ev_gauss (steady_put2 push a c) (start := start) (by omega) incl
    rw [ev_plusInit init e1]
    have e3 := rounds_sum (st.sum rfl) (past N incl - start).toNat init start
    rw [show ((past N incl - start).toNat : Int) = past N incl - start by omega] at e3
    have : init + g = rounds fA (past N incl - start).toNat init start := by nlinarith
    rw [this]
  | mulByTwo =>
    simp only at h
    split_ifs at h with hst
    unfold doubling at h
    obtain ⟨h4, hA⟩ := of_not h
    clear h
    obtain ⟨h5, h⟩ := of_not hA
    clear hA
    have hb0 := shiftMax_spec (init := init) (by omega) (k := 0) (by omega)
    have ho : ok init := st.start _ (by simp only [narrow, decide_eq_true_eq]; omega)
    have val : ∀ k : Nat, (k : Int) ≤ shiftMax init → rounds fA k init start = init * 2 ^ k :=
      fun k hk => rounds_double (st.dbl rfl) k init start (by omega) (shiftMax_spec (by omega) hk).2
    split at h
    · rename_i l
      have hN : N = l := by
        have := steady_self hl
        simp [evalE, litVal] at this
        exact this.symm
      subst hN
      obtain ⟨h6, rfl⟩ := of_ite h
      rw [← hs, hw hh hl ho]
      have e : (N - start + if incl = true then 1 else 0) = past N incl - start := by
        unfold past
        split_ifs <;> omega
      rw [e] at h6 ⊢
      refine guarded_run hne hh hl (fun hlt a c => ?_) zero
      rw [ev_num, val _ (by omega)]
    · rename_i x
      obtain ⟨h6, rfl⟩ := of_ite h
      have g := ev_and (ev2 (op := .ge) (by decide) (steady_self hl) (ev_num (k := start)) (op_ge P _ _))
        (ev2 (op := .le) (by decide) (steady_self hl) (ev_num (k := shiftMax init + start - if incl = true then 1 else 0)) (op_le P _ _))
      have hgo := hw hh hl ho
      rw [hs] at hgo
      rw [hgo]
      apply exs_one
      rw [ex_if g]
      by_cases hg : start ≤ N ∧ N ≤ shiftMax init + start - if incl = true then 1 else 0
      · have e : past N incl - start ≤ shiftMax init ∧ start ≤ past N incl := by
          unfold past
          obtain ⟨g1, g2⟩ := hg
          split_ifs at g2 ⊢ <;> constructor <;> omega
        simp only [ge_iff_le, hg.1, hg.2, decide_true, Bool.and_self, if_true]
        have hf : inScope (execs (over P inv) n [.set ca (.bin .shl (int init) (countExpr start (.var x) incl)), .set cc (counterFinal (.var x) incl)])
            (put2 s ca cc init start) = (.ok .cont, put2 s ca cc (rounds fA (past N incl - start).toNat init start) (max start (past N incl))) := by
          apply block_put2
          have hh' := has_push hh
          have hc := ev_count (steady_put2 push init start) start incl
          obtain ⟨k, hk⟩ := Int.eq_ofNat_of_zero_le (show 0 ≤ past N incl - start by omega)
          have hsp := shiftMax_spec (init := init) (by omega) (k := k) (by omega)
          rw [hk] at hc
          rw [exs_cons (set_acc hne hh' (ev2 (op := .shl) (by decide) ev_num hc (op_shl P (by omega) hsp.2 hsp.1))),
            exs_one (set_ctr hne hh' (ev_final (steady_put2 push _ _) incl)), max_eq_right e.2, hk, Int.toNat_natCast, val k (by omega)]
        rw [hs] at hf
        exact hf
      · have e : (decide (N ≥ start) && decide (N ≤ shiftMax init + start - if incl = true then 1 else 0)) = false := by
          rw [Bool.eq_false_iff]
          intro he
          simp only [Bool.and_eq_true, decide_eq_true_eq] at he
          exact hg he
        simp only [e, Bool.false_eq_true, if_false]
        have hf : inScope (execs (over P inv) n [.whileS (.bin op (.var cc) (.var x)) body]) (put2 s ca cc init start) =
            (.ok .cont, put2 s ca cc (rounds fA (past N incl - start).toNat init start) (max start (past N incl))) := by
          apply block_put2
          exact exs_one (hw (has_push hh) push ho)
        rw [hs] at hf
        exact hf
    · cases h

end Verif.Lang.CF
