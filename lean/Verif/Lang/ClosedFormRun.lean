import Verif.Lang.SymmetryRun
import Verif.Lang.ClosedForm
import Mathlib.Tactic.Linarith
/-! # Counted loops, run in any environment -/
namespace Verif.Lang.CF

open Verif.Lang Verif.Lang.Symm

/-! ## Assigning to a variable that has a value -/

/-- Assign, if the variable is there. -/
def upd (e : Env) (x : Sym) (v : Value) : Env := (e.assign x v).getD e

theorem assign_some {e : Env} {x : Sym} {w : Value} (h : e.lookup x = some w) (v : Value) : e.assign x v = some (upd e x v) := by
  unfold upd Env.assign
  unfold Env.lookup at h
  cases hf : e.frames.isEmpty <;> simp only [hf, Bool.not_true, Bool.not_false, Bool.true_and, Bool.false_and, if_true, Bool.false_eq_true, if_false] at h ⊢
  · cases hl : e.locals x <;> cases hg : e.globals x <;> simp_all
  · cases hl : e.mainBlock x <;> cases hg : e.globals x <;> simp_all

theorem upd_frames (e : Env) (x v) : (upd e x v).frames = e.frames := by
  unfold upd Env.assign
  split_ifs <;> rfl

theorem upd_saves (e : Env) (x v) : (upd e x v).saves = e.saves := by
  unfold upd Env.assign
  split_ifs <;> rfl

theorem upd_self {e : Env} {x : Sym} {w : Value} (h : e.lookup x = some w) (v : Value) : (upd e x v).lookup x = some v := by
  unfold upd Env.assign
  unfold Env.lookup at h ⊢
  cases hf : e.frames.isEmpty <;> simp only [hf, Bool.not_true, Bool.not_false, Bool.true_and, Bool.false_and, if_true, Bool.false_eq_true, if_false] at h ⊢
  · cases hl : e.locals x <;> cases hg : e.globals x <;> simp_all [VMap.put]
  · cases hl : e.mainBlock x <;> cases hg : e.globals x <;> simp_all [VMap.put]

theorem upd_other (e : Env) {x y : Sym} (h : y ≠ x) (v : Value) : (upd e x v).lookup y = e.lookup y := by
  unfold upd Env.assign Env.lookup
  split_ifs <;> simp_all [VMap.put]

theorem put_put (m : VMap) (x : Sym) (v w) : (m.put x v).put x w = m.put x w := by
  funext y
  simp only [VMap.put]
  split_ifs <;> rfl

theorem put_comm (m : VMap) {x y : Sym} (h : x ≠ y) (v w) : (m.put x v).put y w = (m.put y w).put x v := by
  funext z
  simp only [VMap.put]
  split_ifs <;> simp_all

theorem put_same {m : VMap} {x : Sym} {v} (h : m x = v) : m.put x v = m := by
  funext y
  simp only [VMap.put]
  split_ifs with hy
  · rw [hy, h]
  · rfl

theorem upd_upd (e : Env) (x : Sym) (v w) : upd (upd e x v) x w = upd e x w := by
  unfold upd Env.assign
  cases hf : e.frames.isEmpty <;> cases hl : e.locals x <;> cases hm : e.mainBlock x <;> cases hg : e.globals x <;>
    simp [hf, hl, hm, hg, put_put, VMap.put]

theorem upd_comm (e : Env) {x y : Sym} (h : x ≠ y) (v w) : upd (upd e x v) y w = upd (upd e y w) x v := by
  have h' := h.symm
  unfold upd Env.assign
  cases hf : e.frames.isEmpty <;> cases hl : e.locals x <;> cases hm : e.mainBlock x <;> cases hg : e.globals x <;>
    cases hl' : e.locals y <;> cases hm' : e.mainBlock y <;> cases hg' : e.globals y <;>
    simp [hf, hl, hm, hg, hl', hm', hg', put_comm _ h, VMap.put, h, h']

theorem upd_same {e : Env} {x : Sym} {v : Value} (h : e.lookup x = some v) : upd e x v = e := by
  unfold upd Env.assign
  unfold Env.lookup at h
  cases hf : e.frames.isEmpty <;> simp only [hf, Bool.not_true, Bool.not_false, Bool.true_and, Bool.false_and, if_true, Bool.false_eq_true, if_false] at h ⊢
  · cases hl : e.locals x <;> cases hg : e.globals x <;> simp_all [put_same] <;> (subst h; rw [put_same (by assumption)])
  · cases hl : e.mainBlock x <;> cases hg : e.globals x <;> simp_all [put_same] <;> (subst h; cases e; simp_all)

theorem upd_pushScope (e : Env) (x v) : upd e.pushScope x v = (upd e x v).pushScope := by
  unfold upd Env.assign Env.pushScope
  simp only
  split_ifs <;> rfl

theorem pop_push (e : Env) : e.pushScope.popScope = e := by
  unfold Env.pushScope Env.popScope
  simp only [undo]
  split_ifs <;> rfl

theorem lookup_push (e : Env) : e.pushScope.lookup = e.lookup := rfl

/-! ## The two variables of a loop -/

/-- The state with given numbers in two variables. -/
def put2 (s : State) (acc ctr : Sym) (a c : Int) : State :=
  { s with env := upd (upd s.env acc (.int a)) ctr (.int c) }

variable {P : Prims} {inv : Target → List Value → State → Res Value} {s : State} {acc ctr : Sym}

/-- Both variables have a value. -/
def Has (s : State) (acc ctr : Sym) : Prop := (∃ v, s.env.lookup acc = some v) ∧ (∃ v, s.env.lookup ctr = some v)

theorem put2_acc (hne : acc ≠ ctr) (h : Has s acc ctr) (a c : Int) : (put2 s acc ctr a c).env.lookup acc = some (.int a) := by
  obtain ⟨⟨v, hv⟩, w, hw⟩ := h
  simp only [put2]
  rw [upd_other _ hne, upd_self hv]

theorem put2_ctr (hne : acc ≠ ctr) (h : Has s acc ctr) (a c : Int) : (put2 s acc ctr a c).env.lookup ctr = some (.int c) := by
  obtain ⟨⟨v, hv⟩, w, hw⟩ := h
  simp only [put2]
  exact upd_self (w := w) (by rw [upd_other _ hne.symm, hw]) _

theorem put2_other {y : Sym} (h1 : y ≠ acc) (h2 : y ≠ ctr) (a c : Int) : (put2 s acc ctr a c).env.lookup y = s.env.lookup y := by
  simp only [put2]
  rw [upd_other _ h2, upd_other _ h1]

theorem put2_id {a c : Int} (h1 : s.env.lookup acc = some (.int a)) (h2 : s.env.lookup ctr = some (.int c)) : put2 s acc ctr a c = s := by
  simp only [put2]
  rw [upd_same h1, upd_same h2]

theorem put2_put2 (hne : acc ≠ ctr) (a c a' c' : Int) : put2 (put2 s acc ctr a c) acc ctr a' c' = put2 s acc ctr a' c' := by
  simp only [put2]
  rw [upd_comm _ hne (.int a), upd_upd, upd_comm _ hne.symm (.int c), upd_upd]

theorem has_push (h : Has s acc ctr) : Has (s.withEnv (·.pushScope)) acc ctr := h

theorem put2_push (a c : Int) : put2 (s.withEnv (·.pushScope)) acc ctr a c = (put2 s acc ctr a c).withEnv (·.pushScope) := by
  simp only [put2, State.withEnv]
  rw [upd_pushScope, upd_pushScope]

theorem pop_push_state (s : State) : (s.withEnv (·.pushScope)).withEnv (·.popScope) = s := by
  simp only [State.withEnv, pop_push]

theorem has_put2 (hne : acc ≠ ctr) (h : Has s acc ctr) (a c : Int) : Has (put2 s acc ctr a c) acc ctr :=
  ⟨⟨_, put2_acc hne h a c⟩, _, put2_ctr hne h a c⟩

theorem ev_name {x : Sym} {v : Value} {t : State} (h : t.env.lookup x = some v) : evalE (over P inv) (.var x) t = (.ok v, t) := by
  simp [evalE, evVar, h, over]

theorem set_acc {n : Nat} {e : Expr} (hne : acc ≠ ctr) (h : Has s acc ctr) {a c a' : Int}
    (he : evalE (over P inv) e (put2 s acc ctr a c) = (.ok (.int a'), put2 s acc ctr a c)) :
    exec (over P inv) n (.set acc e) (put2 s acc ctr a c) = (.ok .cont, put2 s acc ctr a' c) := by
  simp only [exec, he, Res.bind, doAssign, assign_some (put2_acc hne h a c)]
  simp only [put2]
  rw [upd_comm _ hne.symm, upd_upd]

theorem set_ctr {n : Nat} {e : Expr} (hne : acc ≠ ctr) (h : Has s acc ctr) {a c c' : Int}
    (he : evalE (over P inv) e (put2 s acc ctr a c) = (.ok (.int c'), put2 s acc ctr a c)) :
    exec (over P inv) n (.set ctr e) (put2 s acc ctr a c) = (.ok .cont, put2 s acc ctr a c') := by
  simp only [exec, he, Res.bind, doAssign, assign_some (put2_ctr hne h a c)]
  simp only [put2]
  rw [upd_upd]

/-- A block that only changes the two variables. -/
theorem block_put2 {f : State → Res Flow} {a c a' c' : Int}
    (h : f (put2 (s.withEnv (·.pushScope)) acc ctr a c) = (.ok .cont, put2 (s.withEnv (·.pushScope)) acc ctr a' c')) :
    inScope f (put2 s acc ctr a c) = (.ok .cont, put2 s acc ctr a' c') := by
  simp only [inScope, ← put2_push, h, Res.bind]
  rw [put2_push, pop_push_state]

/-- The rounds of a loop: `fA` changes the accumulator, the counter goes up by one. -/
def rounds (fA : Int → Int → Int) : Nat → Int → Int → Int
  | 0, a, _ => a
  | k + 1, a, c => rounds fA k (fA a c) (c + 1)

/-- A loop that adds one to its counter until it reaches `N`. -/
theorem counted {fc : State → Res Value} {fb : State → Res Flow} {fA : Int → Int → Int} {N : Int} {lo : Int} {ok : Int → Prop}
    (hc : ∀ a c, fc (put2 s acc ctr a c) = (.ok (.bool (decide (c < N))), put2 s acc ctr a c))
    (hok : ∀ a c, ok a → lo ≤ c → c < N → ok (fA a c))
    (hb : ∀ a c, ok a → lo ≤ c → c < N → fb (put2 s acc ctr a c) = (.ok .cont, put2 s acc ctr (fA a c) (c + 1))) :
    ∀ (k : Nat) (a c : Int) (m : Nat), ok a → lo ≤ c → (N - c).toNat = k → k < m →
      whileLoop P fc fb m (put2 s acc ctr a c) = (.ok .cont, put2 s acc ctr (rounds fA k a c) (max c N)) := by
  intro k
  induction k with
  | zero =>
    intro a c m ha hl hk hm
    obtain ⟨m, rfl⟩ : ∃ m', m = m' + 1 := ⟨m - 1, by omega⟩
    have h1 : ¬ c < N := by omega
    have h2 : max c N = c := by omega
    simp [whileLoop, whileStep, hc, Res.bind, h1, truthy, rounds, h2]
  | succ k ih =>
    intro a c m ha hl hk hm
    obtain ⟨m, rfl⟩ : ∃ m', m = m' + 1 := ⟨m - 1, by omega⟩
    have h1 : c < N := by omega
    have h2 : max c N = max (c + 1) N := by omega
    have h := ih (fA a c) (c + 1) m (hok a c ha hl h1) (by omega) (by omega) (by omega)
    simp only [whileLoop, whileStep, hc, Res.bind, h1, decide_true, truthy, if_true, hb a c ha hl h1, loopNext, rounds, h, h2]

/-! ## Values -/

theorem op_lt (P : Prims) (a b : Int) : applyOp P .lt (.int a) (.int b) = .ok (.bool (decide (a < b))) := by
  rcases lt_trichotomy a b with h | h | h
  · simp [applyOp, cmpVals, relOf, compare_lt_iff_lt.mpr h, h, le_of_lt h]
  · subst h; simp [applyOp, cmpVals, relOf]
  · simp [applyOp, cmpVals, relOf, compare_gt_iff_gt.mpr h, h, le_of_lt h]
theorem op_le (P : Prims) (a b : Int) : applyOp P .le (.int a) (.int b) = .ok (.bool (decide (a ≤ b))) := by
  rcases lt_trichotomy a b with h | h | h
  · simp [applyOp, cmpVals, relOf, compare_lt_iff_lt.mpr h, h, le_of_lt h]
  · subst h; simp [applyOp, cmpVals, relOf]
  · simp [applyOp, cmpVals, relOf, compare_gt_iff_gt.mpr h, h, le_of_lt h]
theorem op_gt (P : Prims) (a b : Int) : applyOp P .gt (.int a) (.int b) = .ok (.bool (decide (a > b))) := by
  rcases lt_trichotomy a b with h | h | h
  · simp [applyOp, cmpVals, relOf, compare_lt_iff_lt.mpr h, h, le_of_lt h]
  · subst h; simp [applyOp, cmpVals, relOf]
  · simp [applyOp, cmpVals, relOf, compare_gt_iff_gt.mpr h, h, le_of_lt h]
theorem op_ge (P : Prims) (a b : Int) : applyOp P .ge (.int a) (.int b) = .ok (.bool (decide (a ≥ b))) := by
  rcases lt_trichotomy a b with h | h | h
  · simp [applyOp, cmpVals, relOf, compare_lt_iff_lt.mpr h, h, le_of_lt h]
  · subst h; simp [applyOp, cmpVals, relOf]
  · simp [applyOp, cmpVals, relOf, compare_gt_iff_gt.mpr h, h, le_of_lt h]
theorem op_add (P : Prims) (a b : Int) : applyOp P .add (.int a) (.int b) = .ok (.int (a + b)) := rfl
theorem op_sub (P : Prims) (a b : Int) : applyOp P .sub (.int a) (.int b) = .ok (.int (a - b)) := rfl
theorem op_mul (P : Prims) (a b : Int) : applyOp P .mul (.int a) (.int b) = .ok (.int (a * b)) := rfl
theorem op_div (P : Prims) (a : Int) : applyOp P .div (.int a) (.int 2) = .ok (.int (a.tdiv 2)) := rfl
theorem op_mod (P : Prims) (a : Int) {p : Int} (h : 1 ≤ p) : applyOp P .mod (.int a) (.int p) = .ok (.int (a.tmod p)) := by
  simp [applyOp, modVals, show p ≠ 0 by omega]

theorem le_mul_pow {a b : Int} (h0 : 0 ≤ a) (hb : 1 ≤ b) : a ≤ a * b := by
  nlinarith

/-- A shift that stays in 64 bits is a product. -/
theorem op_shl (P : Prims) {a : Int} {k : Nat} (h0 : 0 ≤ a) (h1 : a * 2 ^ k < 2 ^ 63) (hk : k < 63) :
    applyOp P .shl (.int a) (.int k) = .ok (.int (a * 2 ^ k)) := by
  have hp : (1 : Int) ≤ 2 ^ k := one_le_pow₀ (by omega)
  have ha : a < 2 ^ 63 := lt_of_le_of_lt (le_mul_pow h0 hp) h1
  have n1 : narrow a = true := by simp only [narrow, decide_eq_true_eq]; omega
  have n2 : narrow (k : Int) = true := by simp only [narrow, decide_eq_true_eq]; norm_num; omega
  have h2 : ((k : Int) % 64).toNat = k := by omega
  simp only [applyOp, shiftVals, n1, n2, Bool.and_self, if_true, bshl, h2]
  refine congrArg (fun z => Except.ok (Value.int z)) ?_
  obtain ⟨m, rfl⟩ := Int.eq_ofNat_of_zero_le h0
  have h3 : m * 2 ^ k < 2 ^ 63 := by exact_mod_cast h1
  have h4 : m < 2 ^ 63 := by exact_mod_cast ha
  have e : (BitVec.ofInt 64 (m : Int) <<< k).toNat = m * 2 ^ k := by
    rw [BitVec.toNat_shiftLeft, BitVec.ofInt_natCast, BitVec.toNat_ofNat, Nat.shiftLeft_eq, Nat.mod_eq_of_lt (a := m) (by omega), Nat.mod_eq_of_lt (by omega)]
  rw [BitVec.toInt_eq_toNat_of_lt (by rw [e]; omega), e]
  rw [Nat.cast_mul, Nat.cast_pow]
  norm_num

end Verif.Lang.CF
