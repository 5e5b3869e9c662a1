import Verif.Lang.EncoderSpec
import Mathlib.Tactic.SplitIfs

/-!
# The encoder against the interpreter: lemmas
-/
namespace Verif.Lang.Tv

/-- The type of a symbolic value. -/
def SymVal.ty : SymVal → Ty
  | .int _ => .int
  | .bool _ => .bool

theorem smtSDiv_eq_sdiv (x y : BitVec 64) (h : y ≠ 0) : x.smtSDiv y = x.sdiv y := by
  have h' : -y ≠ 0 := by
    intro e
    apply h
    have := congrArg (fun z => -z) e
    simpa using this
  rw [BitVec.smtSDiv_eq, BitVec.sdiv_eq]
  have e1 : ∀ z : BitVec 64, z.smtUDiv y = z.udiv y := fun z => by
    rw [BitVec.smtUDiv_eq]; exact if_neg h
  have e2 : ∀ z : BitVec 64, z.smtUDiv (-y) = z.udiv (-y) := fun z => by
    rw [BitVec.smtUDiv_eq]; exact if_neg h'
  cases x.msb <;> cases y.msb <;> simp only [e1, e2]

theorem fit_bmod {n : Int} (h : -(2 ^ 63) ≤ n ∧ n < 2 ^ 63) : n.bmod (2 ^ 64) = n :=
  Int.bmod_eq_of_le (by omega) (by omega)

theorem ofInt_toInt_fit {n : Int} (h : -(2 ^ 63) ≤ n ∧ n < 2 ^ 63) : (BitVec.ofInt 64 n).toInt = n := by
  rw [BitVec.toInt_ofInt]; exact fit_bmod h

/-- The environment the encoder keeps agrees with the types. -/
def EnvTy (Γ : Sym → Option Ty) (σ : Sym → Option SymVal) : Prop :=
  ∀ x t, Γ x = some t → ∃ v, σ x = some v ∧ v.ty = t

theorem encBin_arith {op : BinOp} (h : op ∈ [BinOp.add, .sub, .mul, .div, .mod]) (a b er : Term) :
    ∃ t er', encBin op (.int a) (.int b) er = some (.int t, er') ∧ (truth er = true → truth er' = true) ∧
      (op ≠ .div → op ≠ .mod → er' = er) := by
  simp only [List.mem_cons, List.not_mem_nil, or_false] at h
  rcases h with rfl | rfl | rfl | rfl | rfl
  · exact ⟨_, _, rfl, id, fun _ _ => rfl⟩
  · exact ⟨_, _, rfl, id, fun _ _ => rfl⟩
  · exact ⟨_, _, rfl, id, fun _ _ => rfl⟩
  · exact ⟨_, _, rfl, fun h => by simp [truth, h], fun h => absurd rfl h⟩
  · exact ⟨_, _, rfl, fun h => by simp [truth, h], fun _ h => absurd rfl h⟩

/-- The encoder covers typed expressions. -/
theorem encE_total {Γ : Sym → Option Ty} {σ : Sym → Option SymVal} (hσ : EnvTy Γ σ) {e : Expr} {t : Ty}
    (h : HasTy Γ e t) : ∀ er, ∃ v er', encE σ e er = some (v, er') ∧ v.ty = t ∧
      (truth er = true → truth er' = true) ∧ (NoDiv e → er' = er) := by
  induction h with
  | num h1 h2 => intro er; exact ⟨_, _, rfl, rfl, id, fun _ => rfl⟩
  | bool b => intro er; exact ⟨_, _, rfl, rfl, id, fun _ => rfl⟩
  | var hx =>
    intro er
    obtain ⟨v, hv, ht⟩ := hσ _ _ hx
    exact ⟨v, er, by simp [encE, hv], ht, id, fun _ => rfl⟩
  | @arith op a b hop _ _ iha ihb =>
    intro er
    obtain ⟨va, er1, ha, hta, hm1, hd1⟩ := iha er
    obtain ⟨vb, er2, hb, htb, hm2, hd2⟩ := ihb er1
    cases va with
    | bool _ => cases hta
    | int ta =>
      cases vb with
      | bool _ => cases htb
      | int tb =>
        obtain ⟨t', er3, h3, hm3, hd3⟩ := encBin_arith hop ta tb er2
        refine ⟨.int t', er3, by simp [encE, ha, hb, h3], rfl, fun hh => hm3 (hm2 (hm1 hh)), ?_⟩
        intro hn
        cases hn with
        | bin n1 n2 na nb => rw [hd3 n1 n2, hd2 nb, hd1 na]
  | @order op a b hop _ _ iha ihb =>
    intro er
    obtain ⟨va, er1, ha, hta, hm1, hd1⟩ := iha er
    obtain ⟨vb, er2, hb, htb, hm2, hd2⟩ := ihb er1
    cases va with
    | bool _ => cases hta
    | int ta =>
      cases vb with
      | bool _ => cases htb
      | int tb =>
        simp only [List.mem_cons, List.not_mem_nil, or_false] at hop
        rcases hop with rfl | rfl | rfl | rfl <;>
          exact ⟨_, er2, by simp [encE, ha, hb, encBin, applyBinop]; rfl, rfl, fun hh => hm2 (hm1 hh),
            fun hn => by cases hn with | bin _ _ na nb => rw [hd2 nb, hd1 na]⟩
  | @equal op a b t hop _ _ iha ihb =>
    intro er
    obtain ⟨va, er1, ha, hta, hm1, hd1⟩ := iha er
    obtain ⟨vb, er2, hb, htb, hm2, hd2⟩ := ihb er1
    simp only [List.mem_cons, List.not_mem_nil, or_false] at hop
    subst hta
    cases va with
    | bool ta =>
      cases vb with
      | int _ => cases htb
      | bool tb =>
        rcases hop with rfl | rfl <;>
          exact ⟨_, er2, by simp [encE, ha, hb, encBin, applyBinop]; rfl, rfl, fun hh => hm2 (hm1 hh),
            fun hn => by cases hn with | bin _ _ na nb => rw [hd2 nb, hd1 na]⟩
    | int ta =>
      cases vb with
      | bool _ => cases htb
      | int tb =>
        rcases hop with rfl | rfl <;>
          exact ⟨_, er2, by simp [encE, ha, hb, encBin, applyBinop]; rfl, rfl, fun hh => hm2 (hm1 hh),
            fun hn => by cases hn with | bin _ _ na nb => rw [hd2 nb, hd1 na]⟩
  | @logic op a b hop _ _ _ iha ihb =>
    intro er
    obtain ⟨va, er1, ha, hta, hm1, hd1⟩ := iha er
    obtain ⟨vb, er2, hb, htb, hm2, hd2⟩ := ihb er1
    simp only [List.mem_cons, List.not_mem_nil, or_false] at hop
    cases va with
    | int _ => cases hta
    | bool ta =>
      cases vb with
      | int _ => cases htb
      | bool tb =>
        rcases hop with rfl | rfl <;>
          exact ⟨_, er2, by simp [encE, ha, hb, encBin, applyBinop]; rfl, rfl, fun hh => hm2 (hm1 hh),
            fun hn => by cases hn with | bin _ _ na nb => rw [hd2 nb, hd1 na]⟩
  | @not a _ iha =>
    intro er
    obtain ⟨va, er1, ha, hta, hm1, hd1⟩ := iha er
    cases va with
    | int _ => cases hta
    | bool ta =>
      exact ⟨_, er1, by simp [encE, ha]; rfl, rfl, hm1, fun hn => by cases hn with | not na => exact hd1 na⟩

/-- The interpreter's variables hold what the encoder's stand for. -/
def EnvVal (σ : Sym → Option SymVal) (s : State) : Prop :=
  ∀ x v, σ x = some v → s.env.lookup x = some v.value

/-- What is known of an evaluation: it leaves the range, or both semantics give the encoder's value
and error condition. -/
def Agree (rs rp : Res Value) (s : State) (v : SymVal) (er : Term) : Prop :=
  rs = (.error .stuck, s) ∨
  (rs = (.ok v.value, s) ∧ rp = (.ok v.value, s) ∧ truth er = false) ∨
  (rs = (.error .divZero, s) ∧ rp = (.error .divZero, s) ∧ truth er = true)

/-- The instance whose operators are stuck outside 64 bits. -/
abbrev fitI (P : Prims) (n : Nat) : Inst := inst P (fitOp P) (fun _ _ => true) n

theorem fitOp_of {P : Prims} {op : BinOp} {a b : Value} {r : Except Err Value}
    (h : applyOp P op a b = r) : fitOp P op a b = .error .stuck ∨ fitOp P op a b = r := by
  unfold fitOp
  rw [h]
  cases r with
  | error e => right; rfl
  | ok v =>
    cases v <;> first | (right; rfl) | skip
    dsimp only
    split_ifs
    · right; rfl
    · left; rfl

theorem fitOp_int {P : Prims} {op : BinOp} {a b : Value} {n : Int}
    (h : applyOp P op a b = .ok (.int n)) :
    fitOp P op a b = .error .stuck ∨
      (fitOp P op a b = .ok (.int n) ∧ -(2 ^ 63) ≤ n ∧ n < 2 ^ 63) := by
  unfold fitOp
  rw [h]
  dsimp only
  split_ifs with h1
  · exact .inr ⟨rfl, h1⟩
  · exact .inl rfl

/-- One arithmetic operator on two values. -/
theorem arith_agree (P : Prims) {op : BinOp} (h : op ∈ [BinOp.add, .sub, .mul, .div, .mod])
    (a b er : Term) (her : truth er = false) :
    ∃ v er', encBin op (.int a) (.int b) er = some (v, er') ∧
      (fitOp P op (.int (word a).toInt) (.int (word b).toInt) = .error .stuck ∨
       (fitOp P op (.int (word a).toInt) (.int (word b).toInt) = .ok v.value ∧
        applyOp P op (.int (word a).toInt) (.int (word b).toInt) = .ok v.value ∧ truth er' = false) ∨
       (fitOp P op (.int (word a).toInt) (.int (word b).toInt) = .error .divZero ∧
        applyOp P op (.int (word a).toInt) (.int (word b).toInt) = .error .divZero ∧ truth er' = true)) := by
  have hz : (word b).toInt = 0 ↔ word b = 0 := by
    constructor
    · intro e
      apply BitVec.eq_of_toInt_eq
      rw [e]; rfl
    · intro e; rw [e]; rfl
  simp only [List.mem_cons, List.not_mem_nil, or_false] at h
  rcases h with rfl | rfl | rfl | rfl | rfl
  · refine ⟨_, _, rfl, ?_⟩
    rcases fitOp_int (P := P) (op := .add) (a := .int (word a).toInt) (b := .int (word b).toInt) rfl with h | ⟨h, hf⟩
    · exact .inl h
    · right; left
      have e : (word a + word b).toInt = (word a).toInt + (word b).toInt := by
        rw [BitVec.toInt_add]; exact fit_bmod hf
      refine ⟨?_, ?_, her⟩
      · rw [h]; simp only [SymVal.value, word, e]
      · simp only [SymVal.value, word, e]; rfl
  · refine ⟨_, _, rfl, ?_⟩
    rcases fitOp_int (P := P) (op := .sub) (a := .int (word a).toInt) (b := .int (word b).toInt) rfl with h | ⟨h, hf⟩
    · exact .inl h
    · right; left
      have e : (word a - word b).toInt = (word a).toInt - (word b).toInt := by
        rw [BitVec.toInt_sub]; exact fit_bmod hf
      refine ⟨?_, ?_, her⟩
      · rw [h]; simp only [SymVal.value, word, e]
      · simp only [SymVal.value, word, e]; rfl
  · refine ⟨_, _, rfl, ?_⟩
    rcases fitOp_int (P := P) (op := .mul) (a := .int (word a).toInt) (b := .int (word b).toInt) rfl with h | ⟨h, hf⟩
    · exact .inl h
    · right; left
      have e : (word a * word b).toInt = (word a).toInt * (word b).toInt := by
        rw [BitVec.toInt_mul]; exact fit_bmod hf
      refine ⟨?_, ?_, her⟩
      · rw [h]; simp only [SymVal.value, word, e]
      · simp only [SymVal.value, word, e]; rfl
  · refine ⟨_, _, rfl, ?_⟩
    by_cases hb : (word b).toInt = 0
    · right; right
      have h0 : applyOp P .div (.int (word a).toInt) (.int (word b).toInt) = .error .divZero := by
        simp [applyOp, divVals, hb]
      refine ⟨by unfold fitOp; rw [h0], h0, ?_⟩
      simp [truth, word, hz.1 hb]
    · have hw : word b ≠ 0 := fun e => hb (hz.2 e)
      have h0 : applyOp P .div (.int (word a).toInt) (.int (word b).toInt)
          = .ok (.int ((word a).toInt.tdiv (word b).toInt)) := by
        simp [applyOp, divVals, hb]
      rcases fitOp_int h0 with h | ⟨h, hf⟩
      · exact .inl h
      · right; left
        have e : ((word a).smtSDiv (word b)).toInt = (word a).toInt.tdiv (word b).toInt := by
          rw [smtSDiv_eq_sdiv _ _ hw, BitVec.toInt_sdiv]; exact fit_bmod hf
        refine ⟨?_, ?_, ?_⟩
        · rw [h]; simp only [SymVal.value, word, e]
        · rw [h0]; simp only [SymVal.value, word, e]
        · simp only [truth, her, word, Bool.false_or, beq_eq_false_iff_ne, ne_eq]; exact hw
  · refine ⟨_, _, rfl, ?_⟩
    by_cases hb : (word b).toInt = 0
    · right; right
      have h0 : applyOp P .mod (.int (word a).toInt) (.int (word b).toInt) = .error .divZero := by
        simp [applyOp, modVals, hb]
      refine ⟨by unfold fitOp; rw [h0], h0, ?_⟩
      simp [truth, word, hz.1 hb]
    · have hw : word b ≠ 0 := fun e => hb (hz.2 e)
      have h0 : applyOp P .mod (.int (word a).toInt) (.int (word b).toInt)
          = .ok (.int ((word a).toInt.tmod (word b).toInt)) := by
        simp [applyOp, modVals, hb]
      rcases fitOp_int h0 with h | ⟨h, hf⟩
      · exact .inl h
      · right; left
        have e : ((word a).srem (word b)).toInt = (word a).toInt.tmod (word b).toInt :=
          BitVec.toInt_srem _ _
        refine ⟨?_, ?_, ?_⟩
        · rw [h]; simp only [SymVal.value, word, e]
        · rw [h0]; simp only [SymVal.value, word, e]
        · simp only [truth, her, word, Bool.false_or, beq_eq_false_iff_ne, ne_eq]; exact hw

theorem toInt_beq (x y : BitVec 64) : (x.toInt == y.toInt) = (x == y) := by
  rw [Bool.eq_iff_iff, beq_iff_eq, beq_iff_eq]
  exact BitVec.toInt_inj

/-- A comparison of two integers. -/
theorem order_agree (P : Prims) {op : BinOp} (h : op ∈ [BinOp.lt, .gt, .le, .ge]) (a b er : Term) :
    ∃ v, encBin op (.int a) (.int b) er = some (v, er) ∧
      applyOp P op (.int (word a).toInt) (.int (word b).toInt) = .ok v.value ∧
      fitOp P op (.int (word a).toInt) (.int (word b).toInt) = .ok v.value := by
  have key : ∀ op' (r : Bool) v, applyOp P op' (.int (word a).toInt) (.int (word b).toInt) = .ok (.bool r) →
      v = Value.bool r → applyOp P op' (.int (word a).toInt) (.int (word b).toInt) = .ok v ∧
        fitOp P op' (.int (word a).toInt) (.int (word b).toInt) = .ok v := by
    intro op' r v h e
    subst e
    exact ⟨h, by unfold fitOp; rw [h]⟩
  simp only [List.mem_cons, List.not_mem_nil, or_false] at h
  generalize hx : (word a).toInt = x at *
  generalize hy : (word b).toInt = y at *
  rcases h with rfl | rfl | rfl | rfl
  all_goals
    refine ⟨_, rfl, key _ _ _ rfl ?_⟩
    simp only [SymVal.value, truth, hx, hy, relOf]
    congr 1
    rw [Bool.eq_iff_iff]
    simp only [decide_eq_true_eq, beq_iff_eq, bne_iff_ne, ne_eq, Int.compare_eq_lt, Int.compare_eq_gt]
    try omega

/-- An equality test of two values of one type. -/
theorem equal_agree (P : Prims) {op : BinOp} (h : op ∈ [BinOp.eq, .ne]) (v w : SymVal) (hty : v.ty = w.ty)
    (er : Term) :
    ∃ u, encBin op v w er = some (u, er) ∧ applyOp P op v.value w.value = .ok u.value ∧
      fitOp P op v.value w.value = .ok u.value := by
  simp only [List.mem_cons, List.not_mem_nil, or_false] at h
  cases v with
  | int a =>
    cases w with
    | bool _ => cases hty
    | int b =>
      rcases h with rfl | rfl
      · exact ⟨_, rfl, by simp [applyOp, valEq, SymVal.value, truth, toInt_beq],
          by simp [fitOp, applyOp, valEq, SymVal.value, truth, toInt_beq]⟩
      · exact ⟨_, rfl, by simp [applyOp, valEq, SymVal.value, truth, toInt_beq],
          by simp [fitOp, applyOp, valEq, SymVal.value, truth, toInt_beq]⟩
  | bool a =>
    cases w with
    | int _ => cases hty
    | bool b =>
      rcases h with rfl | rfl
      · exact ⟨_, rfl, by simp [applyOp, valEq, SymVal.value, truth],
          by simp [fitOp, applyOp, valEq, SymVal.value, truth]⟩
      · exact ⟨_, rfl, by simp [applyOp, valEq, SymVal.value, truth],
          by simp [fitOp, applyOp, valEq, SymVal.value, truth]⟩

/-- Two operands in order, then an operator. -/
theorem evBin_two {I : Inst} {op : BinOp} (h1 : op ≠ .and) (h2 : op ≠ .or) (fa fb : State → Res Value)
    (s : State) : evBin I op fa fb s
      = (fa s).bind fun a s' => (fb s').bind fun b s'' => lift (I.ap op a b) s'' := by
  unfold evBin
  split <;> first | contradiction | rfl

/-- Two agreeing operands and an agreeing operator agree. -/
theorem agree_two (P : Prims) (n : Nat) {op : BinOp} (h1 : op ≠ .and) (h2 : op ≠ .or) {a b : Expr} {s : State}
    {va vb v : SymVal} {er1 er2 er3 : Term}
    (ha : Agree (evalE (fitI P n) a s) (evalE (plain P n) a s) s va er1)
    (hb : truth er1 = false → Agree (evalE (fitI P n) b s) (evalE (plain P n) b s) s vb er2)
    (m1 : truth er1 = true → truth er2 = true) (m2 : truth er2 = true → truth er3 = true)
    (h : truth er2 = false → fitOp P op va.value vb.value = .error .stuck ∨
      (fitOp P op va.value vb.value = .ok v.value ∧ applyOp P op va.value vb.value = .ok v.value ∧
        truth er3 = false) ∨
      (fitOp P op va.value vb.value = .error .divZero ∧
        applyOp P op va.value vb.value = .error .divZero ∧ truth er3 = true)) :
    Agree (evalE (fitI P n) (.bin op a b) s) (evalE (plain P n) (.bin op a b) s) s v er3 := by
  simp only [evalE, evBin_two h1 h2]
  rcases ha with ha | ⟨ha, ha', he⟩ | ⟨ha, ha', he⟩
  · left; rw [ha]; rfl
  · rw [ha, ha']
    simp only [Res.bind]
    rcases hb he with hb | ⟨hb, hb', he2⟩ | ⟨hb, hb', he2⟩
    · left; rw [hb]
    · rw [hb, hb']
      simp only [lift]
      rcases h he2 with h | ⟨h, h', h''⟩ | ⟨h, h', h''⟩
      · left; exact congrArg (·, s) h
      · right; left; exact ⟨congrArg (·, s) h, congrArg (·, s) h', h''⟩
      · right; right; exact ⟨congrArg (·, s) h, congrArg (·, s) h', h''⟩
    · right; right
      rw [hb, hb']
      exact ⟨rfl, rfl, m2 he2⟩
  · right; right
    rw [ha, ha']
    exact ⟨rfl, rfl, m2 (m1 he)⟩

/-- The encoder agrees with the interpreter on typed expressions. -/
theorem encE_agree (P : Prims) (n : Nat) {Γ : Sym → Option Ty} {σ : Sym → Option SymVal} {s : State}
    (hσ : EnvTy Γ σ) (hs : EnvVal σ s) {e : Expr} {t : Ty} (h : HasTy Γ e t) :
    ∀ er, truth er = false → ∃ v er', encE σ e er = some (v, er') ∧ v.ty = t ∧
      Agree (evalE (fitI P n) e s) (evalE (plain P n) e s) s v er' := by
  induction h with
  | @num k h1 h2 =>
    intro er her
    refine ⟨_, _, rfl, rfl, .inr (.inl ?_)⟩
    simp only [SymVal.value, word, ofInt_toInt_fit ⟨h1, h2⟩]
    exact ⟨rfl, rfl, her⟩
  | bool b =>
    intro er her
    exact ⟨_, _, rfl, rfl, .inr (.inl ⟨rfl, rfl, her⟩)⟩
  | @var x t hx =>
    intro er her
    obtain ⟨v, hv, ht⟩ := hσ _ _ hx
    refine ⟨v, er, by simp [encE, hv], ht, .inr (.inl ⟨?_, ?_, her⟩)⟩ <;>
      simp [evalE, evVar, hs x v hv, inst, plain]
  | @arith op a b hop ta tb iha ihb =>
    intro er her
    obtain ⟨va, er1, ha, hta, hA⟩ := iha er her
    obtain ⟨vb, er2, hb, htb, hm, _⟩ := encE_total hσ tb er1
    have hB : truth er1 = false → Agree (evalE (fitI P n) b s) (evalE (plain P n) b s) s vb er2 := by
      intro h1
      obtain ⟨vb', er2', hb', _, hB⟩ := ihb er1 h1
      rw [hb] at hb'
      cases hb'
      exact hB
    have n1 : op ≠ .and := by rintro rfl; simp at hop
    have n2 : op ≠ .or := by rintro rfl; simp at hop
    cases va with
    | bool _ => cases hta
    | int xa =>
      cases vb with
      | bool _ => cases htb
      | int xb =>
        obtain ⟨t', er3, h3, hm3, _⟩ := encBin_arith hop xa xb er2
        refine ⟨.int t', er3, by simp [encE, ha, hb, h3], rfl,
          agree_two P n n1 n2 hA hB hm hm3 fun h2 => ?_⟩
        obtain ⟨v4, er4, h4, hr⟩ := arith_agree P hop xa xb er2 h2
        rw [h3] at h4
        cases h4
        exact hr
  | @order op a b hop ta tb iha ihb =>
    intro er her
    obtain ⟨va, er1, ha, hta, hA⟩ := iha er her
    obtain ⟨vb, er2, hb, htb, hm, _⟩ := encE_total hσ tb er1
    have hB : truth er1 = false → Agree (evalE (fitI P n) b s) (evalE (plain P n) b s) s vb er2 := by
      intro h1
      obtain ⟨vb', er2', hb', _, hB⟩ := ihb er1 h1
      rw [hb] at hb'
      cases hb'
      exact hB
    have n1 : op ≠ .and := by rintro rfl; simp at hop
    have n2 : op ≠ .or := by rintro rfl; simp at hop
    cases va with
    | bool _ => cases hta
    | int xa =>
      cases vb with
      | bool _ => cases htb
      | int xb =>
        obtain ⟨u, hu, hp, hf⟩ := order_agree P hop xa xb er2
        refine ⟨u, er2, by simp [encE, ha, hb, hu], ?_,
          agree_two P n n1 n2 hA hB hm id fun h2 => .inr (.inl ⟨hf, hp, h2⟩)⟩
        simp only [List.mem_cons, List.not_mem_nil, or_false] at hop
        rcases hop with rfl | rfl | rfl | rfl <;>
          (simp only [encBin, applyBinop, Option.map_some, Option.some.injEq, Prod.mk.injEq] at hu; rw [← hu.1]; rfl)
  | @equal op a b t hop ta tb iha ihb =>
    intro er her
    obtain ⟨va, er1, ha, hta, hA⟩ := iha er her
    obtain ⟨vb, er2, hb, htb, hm, _⟩ := encE_total hσ tb er1
    have hB : truth er1 = false → Agree (evalE (fitI P n) b s) (evalE (plain P n) b s) s vb er2 := by
      intro h1
      obtain ⟨vb', er2', hb', _, hB⟩ := ihb er1 h1
      rw [hb] at hb'
      cases hb'
      exact hB
    have n1 : op ≠ .and := by rintro rfl; simp at hop
    have n2 : op ≠ .or := by rintro rfl; simp at hop
    obtain ⟨u, hu, hp, hf⟩ := equal_agree P hop va vb (hta.trans htb.symm) er2
    refine ⟨u, er2, by simp [encE, ha, hb, hu], ?_,
      agree_two P n n1 n2 hA hB hm id fun h2 => .inr (.inl ⟨hf, hp, h2⟩)⟩
    simp only [List.mem_cons, List.not_mem_nil, or_false] at hop
    cases va <;> cases vb <;> rcases hop with rfl | rfl <;> simp [encBin, applyBinop] at hu <;>
      (rw [← hu]; rfl)
  | @logic op a b hop ta tb hnd iha ihb =>
    intro er her
    obtain ⟨va, er1, ha, hta, hA⟩ := iha er her
    obtain ⟨vb, er2, hb, htb, hm, hd⟩ := encE_total hσ tb er1
    have he2 : er2 = er1 := hd hnd
    subst he2
    have hB : truth er2 = false → Agree (evalE (fitI P n) b s) (evalE (plain P n) b s) s vb er2 := by
      intro h1
      obtain ⟨vb', er2', hb', _, hB⟩ := ihb er2 h1
      rw [hb] at hb'
      cases hb'
      exact hB
    cases va with
    | int _ => cases hta
    | bool xa =>
      cases vb with
      | int _ => cases htb
      | bool xb =>
        simp only [List.mem_cons, List.not_mem_nil, or_false] at hop
        rcases hop with rfl | rfl
        · refine ⟨.bool (.and xa xb), er2, by simp [encE, ha, hb, encBin, applyBinop], rfl, ?_⟩
          simp only [evalE, evBin]
          rcases hA with hA | ⟨hA, hA', he⟩ | ⟨hA, hA', he⟩
          · left; rw [hA]; rfl
          · rw [hA, hA']
            simp only [Res.bind]
            by_cases hxa : truth xa = true
            rotate_left
            · right; left
              rw [if_neg (show ¬ truthy (fitI P n).P (SymVal.bool xa).value = true from hxa),
                if_neg (show ¬ truthy (plain P n).P (SymVal.bool xa).value = true from hxa)]
              simp [SymVal.value, truth, hxa, he]
            · rw [if_pos (show truthy (fitI P n).P (SymVal.bool xa).value = true from hxa),
                if_pos (show truthy (plain P n).P (SymVal.bool xa).value = true from hxa)]
              rcases hB he with hB | ⟨hB, hB', _⟩ | ⟨hB, hB', _⟩
              · left; rw [hB]; rfl
              · right; left; rw [hB, hB']; simp [boolOut, Res.bind, SymVal.value, truthy, truth, hxa, he]
              · right; right; rw [hB, hB']; simp [boolOut, Res.bind]; assumption
          · right; right; rw [hA, hA']; exact ⟨rfl, rfl, he⟩
        · refine ⟨.bool (.or xa xb), er2, by simp [encE, ha, hb, encBin, applyBinop], rfl, ?_⟩
          simp only [evalE, evBin]
          rcases hA with hA | ⟨hA, hA', he⟩ | ⟨hA, hA', he⟩
          · left; rw [hA]; rfl
          · rw [hA, hA']
            simp only [Res.bind]
            by_cases hxa : truth xa = true
            · right; left
              rw [if_pos (show truthy (fitI P n).P (SymVal.bool xa).value = true from hxa),
                if_pos (show truthy (plain P n).P (SymVal.bool xa).value = true from hxa)]
              simp [SymVal.value, truth, hxa, he]
            · rw [if_neg (show ¬ truthy (fitI P n).P (SymVal.bool xa).value = true from hxa),
                if_neg (show ¬ truthy (plain P n).P (SymVal.bool xa).value = true from hxa)]
              rcases hB he with hB | ⟨hB, hB', _⟩ | ⟨hB, hB', _⟩
              · left; rw [hB]; rfl
              · right; left; rw [hB, hB']; simp [boolOut, Res.bind, SymVal.value, truthy, truth, hxa, he]
              · right; right; rw [hB, hB']; simp [boolOut, Res.bind]; assumption
          · right; right; rw [hA, hA']; exact ⟨rfl, rfl, he⟩
  | @not a ta iha =>
    intro er her
    obtain ⟨va, er1, ha, hta, hA⟩ := iha er her
    cases va with
    | int _ => cases hta
    | bool xa =>
      refine ⟨.bool (.not xa), er1, by simp [encE, ha, encNot], rfl, ?_⟩
      simp only [evalE]
      rcases hA with hA | ⟨hA, hA', he⟩ | ⟨hA, hA', he⟩
      · left; rw [hA]; rfl
      · right; left; rw [hA, hA']; exact ⟨rfl, rfl, he⟩
      · right; right; rw [hA, hA']; exact ⟨rfl, rfl, he⟩

/-- At the top level, outside every block. -/
def Top (s : State) : Prop :=
  s.env.frames = [] ∧ s.env.saves = [] ∧ s.env.mainBlock = fun _ => none

theorem define_top {s : State} (h : Top s) (x : Sym) (v : Value) :
    Top (s.withEnv (·.define x v)) ∧
      ∀ y, (s.withEnv (·.define x v)).env.lookup y = if y = x then some v else s.env.lookup y := by
  obtain ⟨h1, h2, h3⟩ := h
  have e : s.env.define x v = { s.env with globals := s.env.globals.put x (some v) } := by
    simp [Env.define, h1, h2]
  refine ⟨?_, fun y => ?_⟩
  · simp only [Top, State.withEnv, e]; exact ⟨h1, h2, h3⟩
  · simp only [State.withEnv, e, Env.lookup, h1, h3, VMap.put]
    simp

theorem assign_top {s : State} (h : Top s) (x : Sym) (v : Value) (hx : (s.env.lookup x).isSome) :
    ∃ e', s.env.assign x v = some e' ∧ Top { s with env := e' } ∧
      ∀ y, e'.lookup y = if y = x then some v else s.env.lookup y := by
  obtain ⟨h1, h2, h3⟩ := h
  have hx' : (s.env.globals x).isSome := by
    simpa [Env.lookup, h1, h3] using hx
  refine ⟨{ s.env with globals := s.env.globals.put x (some v) }, ?_, ?_, fun y => ?_⟩
  · simp [Env.assign, h1, h3, hx']
  · exact ⟨h1, h2, h3⟩
  · simp only [Env.lookup, h1, h3, VMap.put]
    simp

theorem envTy_insert {Γ : Sym → Option Ty} {σ : Sym → Option SymVal} (h : EnvTy Γ σ) (x : Sym) (v : SymVal) :
    EnvTy (fun y => if y = x then some v.ty else Γ y) (fun y => if y = x then some v else σ y) := by
  intro y t hy
  dsimp only at hy ⊢
  split_ifs at hy ⊢ with hyx
  · exact ⟨v, rfl, by injection hy⟩
  · exact h y t hy

/-- The encoder covers typed straight-line programs; it only adds outputs, and an error stays. -/
theorem encSs_total {Γ : Sym → Option Ty} {p : List Stmt} (h : Straight Γ p) : ∀ S : SState,
    EnvTy Γ S.env → ∃ S' extra, encSs S p = some S' ∧ S'.outputs = S.outputs ++ extra ∧
      (truth S.errored = true → truth S'.errored = true) := by
  induction h with
  | nil => intro S _; exact ⟨S, [], rfl, by simp, id⟩
  | @letS Γ x i m e t p he _ ih =>
    intro S hS
    obtain ⟨v, er, hv, ht, hm, _⟩ := encE_total hS he S.errored
    subst ht
    obtain ⟨S', extra, h1, h2, h3⟩ := ih ({ S with errored := er }.insert x v) (envTy_insert hS x v)
    exact ⟨S', extra, by simp [encSs, encS, hv, h1], h2, fun hh => h3 (hm hh)⟩
  | @set Γ x e t p hx he _ ih =>
    intro S hS
    obtain ⟨v, er, hv, ht, hm, _⟩ := encE_total hS he S.errored
    subst ht
    obtain ⟨S', extra, h1, h2, h3⟩ := ih ({ S with errored := er }.insert x v) (envTy_insert hS x v)
    have hs : (S.env x).isSome := by
      obtain ⟨t', ht'⟩ := Option.ne_none_iff_exists'.1 hx
      obtain ⟨w, hw, _⟩ := hS x t' ht'
      simp [hw]
    exact ⟨S', extra, by simp [encSs, encS, hs, hv, h1], h2, fun hh => h3 (hm hh)⟩
  | @showS Γ e t p he _ ih =>
    intro S hS
    obtain ⟨v, er, hv, ht, hm, _⟩ := encE_total hS he S.errored
    obtain ⟨S', extra, h1, h2, h3⟩ := ih { S with errored := er, outputs := S.outputs ++ [v] } hS
    exact ⟨S', v :: extra, by simp [encSs, encS, hv, h1], by simp [h2], fun hh => h3 (hm hh)⟩
  | @funDef Γ f ps b p _ ih =>
    intro S hS
    obtain ⟨S', extra, h1, h2, h3⟩ := ih S hS
    exact ⟨S', extra, by simp [encSs, encS, h1], h2, h3⟩

/-- What is known of the run of a program from `s`: it leaves the range; or it finishes, having
printed every output; or it divides by zero, having printed some of the outputs. -/
def Runs (P : Prims) (rs rp : Res Flow) (s : State) (extra : List SymVal) (er : Term) : Prop :=
  rs.1 = .error .stuck ∨
  (∃ s', rp = (.ok .cont, s') ∧ truth er = false ∧
    s'.out.reverse = s.out.reverse ++ extra.map (fun v => disp P v.value)) ∨
  (∃ s' pre, rp = (.error .divZero, s') ∧ truth er = true ∧ pre <+: extra ∧
    s'.out.reverse = s.out.reverse ++ pre.map (fun v => disp P v.value))

theorem encSs_agree (P : Prims) (n : Nat) {Γ : Sym → Option Ty} {p : List Stmt} (h : Straight Γ p) :
    ∀ (S : SState) (s : State), EnvTy Γ S.env → EnvVal S.env s → Top s → truth S.errored = false →
      ∃ S' extra, encSs S p = some S' ∧ S'.outputs = S.outputs ++ extra ∧
        Runs P (execs (fitI P n) n p s) (execs (plain P n) n p s) s extra S'.errored := by
  induction h with
  | nil =>
    intro S s _ _ _ her
    exact ⟨S, [], rfl, by simp, .inr (.inl ⟨s, by simp [execs], her, by simp⟩)⟩
  | @letS Γ x i m e t p he hp ih =>
    intro S s hS hs htop her
    obtain ⟨v, er, hv, ht, hA⟩ := encE_agree P n hS hs he S.errored her
    subst ht
    have hS' := envTy_insert hS x v
    obtain ⟨S1, extra1, hh1, hh2, hh3⟩ := encSs_total hp ({ S with errored := er }.insert x v) hS'
    refine ⟨S1, extra1, by simp [encSs, encS, hv, hh1], hh2, ?_⟩
    rcases hA with hA | ⟨hA, hA', hE⟩ | ⟨hA, hA', hE⟩
    · left; simp [execs, exec, hA, Res.bind]
    · obtain ⟨htop', hl⟩ := define_top htop x v.value
      obtain ⟨S2, extra2, hk1, hk2, hR⟩ := ih ({ S with errored := er }.insert x v)
        (s.withEnv (·.define x v.value)) hS' (by
          intro y w hw
          rw [hl]
          simp only [SState.insert] at hw
          split_ifs at hw ⊢ with hy
          · injection hw with hw; rw [hw]
          · exact hs y w hw) htop' hE
      rw [hh1] at hk1
      injection hk1 with hk1
      subst hk1
      have : extra1 = extra2 := by
        rw [hh2] at hk2
        exact List.append_cancel_left hk2
      subst this
      simpa [Runs, execs, exec, hA, hA', Res.bind, doDefine, State.withEnv] using hR
    · right; right
      exact ⟨s, [], by simp [execs, exec, hA', Res.bind], hh3 hE, List.nil_prefix, by simp⟩
  | @set Γ x e t p hx he hp ih =>
    intro S s hS hs htop her
    obtain ⟨v, er, hv, ht, hA⟩ := encE_agree P n hS hs he S.errored her
    subst ht
    have hS' := envTy_insert hS x v
    obtain ⟨S1, extra1, hh1, hh2, hh3⟩ := encSs_total hp ({ S with errored := er }.insert x v) hS'
    obtain ⟨t', ht'⟩ := Option.ne_none_iff_exists'.1 hx
    obtain ⟨w0, hw0, _⟩ := hS x t' ht'
    have hsx : (S.env x).isSome := by simp [hw0]
    refine ⟨S1, extra1, by simp [encSs, encS, hsx, hv, hh1], hh2, ?_⟩
    rcases hA with hA | ⟨hA, hA', hE⟩ | ⟨hA, hA', hE⟩
    · left; simp [execs, exec, hA, Res.bind]
    · obtain ⟨e', he', htop', hl⟩ := assign_top htop x v.value (by rw [hs x w0 hw0]; rfl)
      obtain ⟨S2, extra2, hk1, hk2, hR⟩ := ih ({ S with errored := er }.insert x v)
        { s with env := e' } hS' (by
          intro y w hw
          rw [hl]
          simp only [SState.insert] at hw
          split_ifs at hw ⊢ with hy
          · injection hw with hw; rw [hw]
          · exact hs y w hw) htop' hE
      rw [hh1] at hk1
      injection hk1 with hk1
      subst hk1
      have : extra1 = extra2 := by
        rw [hh2] at hk2
        exact List.append_cancel_left hk2
      subst this
      simpa [Runs, execs, exec, hA, hA', Res.bind, doAssign, he'] using hR
    · right; right
      exact ⟨s, [], by simp [execs, exec, hA', Res.bind], hh3 hE, List.nil_prefix, by simp⟩
  | @showS Γ e t p he hp ih =>
    intro S s hS hs htop her
    obtain ⟨v, er, hv, ht, hA⟩ := encE_agree P n hS hs he S.errored her
    obtain ⟨S1, extra1, hh1, hh2, hh3⟩ := encSs_total hp { S with errored := er, outputs := S.outputs ++ [v] } hS
    refine ⟨S1, v :: extra1, by simp [encSs, encS, hv, hh1], by simp [hh2], ?_⟩
    rcases hA with hA | ⟨hA, hA', hE⟩ | ⟨hA, hA', hE⟩
    · left; simp [execs, exec, hA, Res.bind]
    · obtain ⟨S2, extra2, hk1, hk2, hR⟩ := ih { S with errored := er, outputs := S.outputs ++ [v] }
        { s with out := disp P v.value :: s.out } hS hs htop hE
      rw [hh1] at hk1
      injection hk1 with hk1
      subst hk1
      have : extra1 = extra2 := by
        rw [hh2] at hk2
        exact List.append_cancel_left hk2
      subst this
      have e1 : execs (fitI P n) n (.showS e :: p) s
          = execs (fitI P n) n p { s with out := disp P v.value :: s.out } := by
        simp only [execs, exec, hA, Res.bind, doShow]
        rfl
      have e2 : execs (plain P n) n (.showS e :: p) s
          = execs (plain P n) n p { s with out := disp P v.value :: s.out } := by
        simp only [execs, exec, hA', Res.bind, doShow]
        rfl
      rw [e1, e2]
      rcases hR with hR | ⟨s', h1, h2, h3⟩ | ⟨s', pre, h1, h2, h3, h4⟩
      · exact .inl hR
      · exact .inr (.inl ⟨s', h1, h2, by rw [h3]; simp⟩)
      · exact .inr (.inr ⟨s', v :: pre, h1, h2, List.cons_prefix_cons.2 ⟨rfl, h3⟩, by rw [h4]; simp⟩)
    · right; right
      exact ⟨s, [], by simp [execs, exec, hA', Res.bind], hh3 hE, List.nil_prefix, by simp⟩
  | @funDef Γ f ps b p hp ih =>
    intro S s hS hs htop her
    obtain ⟨S', extra, h1, h2, hR⟩ := ih S (defineFun f { params := ps.map Prod.fst, body := b } s) hS hs htop her
    refine ⟨S', extra, by simp [encSs, encS, h1], h2, ?_⟩
    simpa [Runs, execs, exec, Res.bind, defineFun] using hR

end Verif.Lang.Tv
