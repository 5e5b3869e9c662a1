import Verif.Lang.SymmetryBits
/-!
# Running counting searches

Lemmas for C116: the interpreter on the loops and functions of a counting search.
-/
namespace Verif.Lang.Symm
open Finset

/-- A word as a value. -/
def V (x : BitVec 64) : Value := .int x.toInt

theorem narrow_word (x : BitVec 64) : narrow x.toInt = true := by
  have h1 := BitVec.toInt_lt (x := x)
  have h2 := BitVec.le_toInt (x := x)
  simp only [narrow, decide_eq_true_eq]
  norm_num at h1 h2 ⊢
  omega

theorem op_and (P : Prims) (x y : BitVec 64) : applyOp P .bitAnd (V x) (V y) = .ok (V (x &&& y)) := by
  simp [applyOp, V, bitVals, narrow_word, band]
theorem op_or (P : Prims) (x y : BitVec 64) : applyOp P .bitOr (V x) (V y) = .ok (V (x ||| y)) := by
  simp [applyOp, V, bitVals, narrow_word, bor]
theorem op_xor (P : Prims) (x y : BitVec 64) : applyOp P .bitXor (V x) (V y) = .ok (V (x ^^^ y)) := by
  simp [applyOp, V, bitVals, narrow_word, bxor]
theorem op_shl1 (P : Prims) (x : BitVec 64) : applyOp P .shl (V x) (.int 1) = .ok (V (x <<< 1)) := by
  simp [applyOp, V, shiftVals, narrow_word, bshl, show narrow 1 = true by decide]
theorem op_shr1 (P : Prims) (x : BitVec 64) : applyOp P .shr (V x) (.int 1) = .ok (V (x.sshiftRight 1)) := by
  simp [applyOp, V, shiftVals, narrow_word, bshr, show narrow 1 = true by decide]

theorem op_neg (P : Prims) (x : BitVec 64) (h : x.msb = false) : applyOp P .sub (.int 0) (V x) = .ok (V (-x)) := by
  have : x ≠ BitVec.intMin 64 := by
    rintro rfl
    revert h
    decide
  simp [applyOp, V, subVals, BitVec.toInt_neg_of_ne_intMin this]

theorem minus_one : (Value.int (-1)) = V (BitVec.allOnes 64) := by
  simp only [V]
  congr 1

theorem op_one_shl (P : Prims) {n : Nat} (hn : n < 63) : applyOp P .shl (.int 1) (.int n) = .ok (V (BitVec.twoPow 64 n)) := by
  have h1 : narrow (n : Int) = true := by simp only [narrow, decide_eq_true_eq]; norm_num; omega
  have h2 : ((n : Int) % 64).toNat = n := by omega
  simp only [applyOp, V, shiftVals, h1, show narrow 1 = true by decide, Bool.and_self, if_true, bshl, h2]
  rw [BitVec.twoPow_eq]
  rfl

theorem twoPow_toInt {n : Nat} (hn : n < 63) : (BitVec.twoPow 64 n).toInt = 2 ^ n := by
  have h1 : 2 ^ n < 2 ^ 63 := Nat.pow_lt_pow_right (by omega) hn
  have h : (BitVec.twoPow 64 n).toNat = 2 ^ n := by
    rw [BitVec.toNat_twoPow, Nat.mod_eq_of_lt (by norm_num at h1 ⊢; omega)]
  rw [BitVec.toInt_eq_toNat_of_lt (by rw [h]; norm_num at h1 ⊢; omega), h]
  push_cast
  rfl

theorem op_full (P : Prims) {n : Nat} (hn : n < 63) : applyOp P .sub (V (BitVec.twoPow 64 n)) (.int 1) = .ok (V (fullMask n)) := by
  have h1 : 2 ^ n < 2 ^ 63 := Nat.pow_lt_pow_right (by omega) hn
  have h2 : 1 ≤ 2 ^ n := Nat.one_le_two_pow
  have h : (fullMask n).toNat = 2 ^ n - 1 := by
    simp only [fullMask, BitVec.toNat_sub, BitVec.toNat_shiftLeft, BitVec.toNat_ofNat, Nat.shiftLeft_eq]
    norm_num at h1 h2 ⊢
    omega
  have h3 : (fullMask n).toInt = 2 ^ n - 1 := by
    rw [BitVec.toInt_eq_toNat_of_lt (by rw [h]; norm_num at h1 ⊢; omega), h]
    push_cast [h2]
    rfl
  simp [applyOp, V, subVals, twoPow_toInt hn, h3]

theorem op_half (P : Prims) {n : Nat} (hn : n < 63) : applyOp P .shr (.int n) (.int 1) = .ok (.int ((n / 2 : Nat) : Int)) := by
  have h1 : narrow (n : Int) = true := by simp only [narrow, decide_eq_true_eq]; norm_num; omega
  have : ∀ n : Fin 63, ((BitVec.ofInt 64 ((n.1 : Nat) : Int)).sshiftRight 1).toInt = ((n.1 / 2 : Nat) : Int) := by decide +kernel
  have h2 := this ⟨n, hn⟩
  simp only [applyOp, shiftVals, h1, show narrow 1 = true by decide, Bool.and_self, if_true, bshr]
  exact congrArg (fun z => Except.ok (Value.int z)) h2

theorem op_mod2 (P : Prims) (n : Nat) : applyOp P .mod (.int n) (.int 2) = .ok (.int ((n % 2 : Nat) : Int)) := by
  simp only [applyOp, modVals]
  rw [if_neg (by decide), Int.tmod_eq_emod_of_nonneg (by omega)]
  push_cast
  rfl

/-! ## Statements inside a function -/

/-- The state with other variables of the running function. -/
def withLocals (s : State) (L : VMap) (sv : List (List (Sym × Option Value))) : State :=
  { s with env := { s.env with locals := L, saves := sv } }

/-- The interpreter over a given meaning of calls. -/
def over (P : Prims) (inv : Target → List Value → State → Res Value) : Inst := ⟨P, applyOp P, fun _ _ => true, inv⟩

variable {P : Prims} {inv : Target → List Value → State → Res Value} {s : State}

theorem put_self (L : VMap) (x : Sym) (v) : L.put x v x = v := by simp [VMap.put]
theorem put_other (L : VMap) {x y : Sym} (v) (h : y ≠ x) : L.put x v y = L y := by simp [VMap.put, h]

theorem ev_var (hf : s.env.frames ≠ []) {L sv x v} (h : L x = some v) :
    evalE (over P inv) (.var x) (withLocals s L sv) = (.ok v, withLocals s L sv) := by
  simp [evalE, evVar, Env.lookup, withLocals, hf, h, over]

theorem ev_int {k : Int} {st : State} : evalE (over P inv) (intLit k) st = (.ok (.int k), st) := by
  simp [evalE, intLit, litVal]

theorem ev_bin {op : BinOp} {a b : Expr} {st : State} {va vb v : Value} (ho : op ≠ .and ∧ op ≠ .or)
    (ha : evalE (over P inv) a st = (.ok va, st)) (hb : evalE (over P inv) b st = (.ok vb, st))
    (h : applyOp P op va vb = .ok v) : evalE (over P inv) (.bin op a b) st = (.ok v, st) := by
  simp only [evalE]
  cases op <;> simp_all [evBin, Res.bind, lift, over]

theorem ex_let (hf : s.env.frames ≠ []) {L sv x t m e v n} (h : evalE (over P inv) e (withLocals s L sv) = (.ok v, withLocals s L sv)) :
    exec (over P inv) n (.letS x t m e) (withLocals s L sv) =
      (.ok .cont, withLocals s (L.put x (some v)) (recordSave x (L x) sv)) := by
  simp only [exec, h, Res.bind]
  simp [doDefine, State.withEnv, Env.define, withLocals, hf]

theorem ex_set (hf : s.env.frames ≠ []) {L sv x e v n} (hx : (L x).isSome = true)
    (h : evalE (over P inv) e (withLocals s L sv) = (.ok v, withLocals s L sv)) :
    exec (over P inv) n (.set x e) (withLocals s L sv) = (.ok .cont, withLocals s (L.put x (some v)) sv) := by
  simp only [exec, h, Res.bind]
  simp [doAssign, Env.assign, withLocals, hf, hx]

theorem exs_cons {n st rest} {a b : State} (h : exec (over P inv) n st a = (.ok .cont, b)) :
    execs (over P inv) n (st :: rest) a = execs (over P inv) n rest b := by
  simp [execs, h, Res.bind]

theorem in_scope (hf : s.env.frames ≠ []) {f : State → Res Flow} {L L' sv sc fl}
    (h : f (withLocals s L ([] :: sv)) = (.ok fl, withLocals s L' (sc :: sv))) :
    inScope f (withLocals s L sv) = (.ok fl, withLocals s (undo L' sc) sv) := by
  have : (withLocals s L sv).withEnv (·.pushScope) = withLocals s L ([] :: sv) := rfl
  simp only [inScope, this, h, Res.bind]
  simp [State.withEnv, Env.popScope, withLocals, hf]

theorem ex_if_false (hf : s.env.frames ≠ []) {c t n L sv}
    (h : evalE (over P inv) c (withLocals s L sv) = (.ok (.bool false), withLocals s L sv)) :
    exec (over P inv) n (.ifS c t []) (withLocals s L sv) = (.ok .cont, withLocals s L sv) := by
  have h1 := in_scope (s := s) hf (f := execs (over P inv) n []) (L := L) (sv := sv) (L' := L) (sc := []) (fl := .cont) (by simp [execs])
  simp only [exec, h, Res.bind]
  simpa [truthy, undo] using h1

/-- The body of a loop over the bits of a set. -/
def bitBody (x bit acc : Sym) (call : Expr) : List Stmt :=
  [.letS bit false false (.bin .bitAnd (.var x) (.bin .sub (intLit 0) (.var x))),
   .set x (.bin .bitXor (.var x) (.var bit)),
   .set acc (.bin .add (.var acc) call)]

/-- A loop over the bits of a set adds up what the call gives for each. -/
theorem bit_loop (hf : s.env.frames ≠ []) (x bit acc : Sym) (hxb : x ≠ bit) (hxa : x ≠ acc) (hba : bit ≠ acc) (call : Expr)
    (h : Nat → Int) (base : VMap) (n : Nat) (dom : Nat → Prop)
    (hcall : ∀ L sv k, dom k → (∀ y, y ≠ x → y ≠ acc → y ≠ bit → L y = base y) → L bit = some (V (BitVec.twoPow 64 k)) →
      evalE (over P inv) call (withLocals s L sv) = (.ok (.int (h k)), withLocals s L sv)) :
    ∀ (ks : List Nat) (X : BitVec 64) (a : Int) (m : Nat) (L : VMap) sv, places X = ks → (∀ k ∈ ks, dom k ∧ k < 63) →
      ks.length < m → (∀ y, y ≠ x → y ≠ acc → y ≠ bit → L y = base y) → L x = some (V X) → L acc = some (.int a) →
      ∃ L', whileLoop P (evalE (over P inv) (.bin .ne (.var x) (intLit 0)))
          (inScope (execs (over P inv) n (bitBody x bit acc call))) m (withLocals s L sv) = (.ok .cont, withLocals s L' sv) ∧
        (∀ y, y ≠ x → y ≠ acc → y ≠ bit → L' y = base y) ∧ L' acc = some (.int (a + (ks.map h).sum)) := by
  intro ks
  induction ks with
  | nil =>
    intro X a m L sv hp _ hm hL hx ha
    have h0 := places_nil.1 hp
    subst h0
    obtain ⟨m, rfl⟩ := Nat.exists_eq_succ_of_ne_zero (show m ≠ 0 by simp at hm; omega)
    have hc := ev_bin (P := P) (inv := inv) (op := .ne) (by decide) (ev_var hf (sv := sv) hx) (ev_int (k := 0))
      (v := .bool false) (by simp [applyOp, V, valEq])
    refine ⟨L, ?_, hL, by simpa using ha⟩
    simp [whileLoop, whileStep, hc, Res.bind, truthy]
  | cons k ks ih =>
    intro X a m L sv hp hd hm hL hx ha
    obtain ⟨m, rfl⟩ := Nat.exists_eq_succ_of_ne_zero (show m ≠ 0 by omega)
    obtain ⟨hlow, hrest⟩ := places_cons hp
    have hne : X ≠ 0#64 := by
      intro e
      rw [places_nil.2 e] at hp
      cases hp
    have hne' : X.toInt ≠ 0 := by
      intro e
      exact hne (BitVec.toInt_inj.1 (by simpa using e))
    have hmsb : X.msb = false := by
      rw [BitVec.msb_eq_getLsbD_last]
      by_contra hb
      have := mem_places.2 (by simpa using hb : X.getLsbD (64 - 1) = true)
      rw [hp] at this
      have := (hd _ this).2
      omega
    have hc := ev_bin (P := P) (inv := inv) (op := .ne) (by decide) (ev_var hf (sv := sv) hx) (ev_int (k := 0))
      (v := .bool true) (by simp [applyOp, V, valEq, hne'])
    -- the three statements
    let L1 := L.put bit (some (V (BitVec.twoPow 64 k)))
    let L2 := L1.put x (some (V (X ^^^ BitVec.twoPow 64 k)))
    let L3 := L2.put acc (some (.int (a + h k)))
    have e1 := ex_let (P := P) (inv := inv) hf (L := L) (sv := [] :: sv) (x := bit) (t := false) (m := false) (n := n)
      (ev_bin (op := .bitAnd) (by decide) (ev_var hf hx)
        (ev_bin (op := .sub) (by decide) (ev_int (k := 0)) (ev_var hf hx) (op_neg P X hmsb)) (op_and P X (-X)))
    rw [hlow] at e1
    have e2 := ex_set (P := P) (inv := inv) hf (L := L1) (sv := recordSave bit (L bit) ([] :: sv)) (x := x) (n := n)
      (by simp [L1, put_other _ _ hxb, hx])
      (ev_bin (op := .bitXor) (by decide) (ev_var hf (L := L1) (x := x) (v := V X) (by simp [L1, put_other _ _ hxb, hx])) (ev_var hf (L := L1) (x := bit) (v := V (BitVec.twoPow 64 k)) (by simp [L1, put_self]))
        (op_xor P X (BitVec.twoPow 64 k)))
    have hacc2 : L2 acc = some (.int a) := by simp [L2, L1, put_other _ _ hxa.symm, put_other _ _ hba.symm, ha]
    have e3 := ex_set (P := P) (inv := inv) hf (L := L2) (sv := recordSave bit (L bit) ([] :: sv)) (x := acc) (n := n)
      (by simp [hacc2])
      (ev_bin (op := .add) (by decide) (ev_var hf hacc2)
        (hcall L2 _ k (hd k (by simp)).1 (by
          intro y h1 h2 h3
          simp [L2, L1, put_other _ _ h1, put_other _ _ h3, hL y h1 h2 h3]) (by simp [L2, put_other _ _ hxb.symm, L1, put_self]))
        (v := .int (a + h k)) (by simp [applyOp, addVals]))
    have eb : execs (over P inv) n (bitBody x bit acc call) (withLocals s L ([] :: sv)) =
        (.ok .cont, withLocals s L3 ([(bit, L bit)] :: sv)) := by
      unfold bitBody
      rw [exs_cons e1, exs_cons e2, exs_cons e3]
      simp [execs, recordSave, L3]
    have es := in_scope hf eb
    have hu : undo L3 [(bit, L bit)] = L3.put bit (L bit) := rfl
    obtain ⟨L', hw, hL', hacc'⟩ := ih (X ^^^ BitVec.twoPow 64 k) (a + h k) m (L3.put bit (L bit)) sv hrest
      (fun j hj => hd j (by simp [hj])) (by simp at hm; omega)
      (by
        intro y h1 h2 h3
        simp [L3, L2, L1, put_other _ _ h1, put_other _ _ h2, put_other _ _ h3, hL y h1 h2 h3])
      (by simp [put_other _ _ hxb, L3, put_other _ _ hxa, L2, put_self])
      (by simp [put_other _ _ hba.symm, L3, put_self])
    refine ⟨L', ?_, hL', by rw [hacc']; simp [add_assoc]⟩
    rw [whileLoop, whileStep, hc]
    simp only [Res.bind, truthy, if_true, es, loopNext, hu, hw]

theorem ex_while {c b n} {st st' : State} {fl : Flow}
    (h : whileLoop P (evalE (over P inv) c) (inScope (execs (over P inv) n b)) n st = (.ok fl, st')) :
    exec (over P inv) n (.whileS c b) st = (.ok fl, st') := by
  simpa [exec, over] using h

theorem ex_ret {e v n} {st : State} (h : evalE (over P inv) e st = (.ok v, st)) :
    exec (over P inv) n (.ret (some e)) st = (.ok (.ret v), st) := by
  simp [exec, h, Res.bind]

theorem exs_ret {n stm rest v} {a b : State} (h : exec (over P inv) n stm a = (.ok (.ret v), b)) :
    execs (over P inv) n (stm :: rest) a = (.ok (.ret v), b) := by
  simp [execs, h, Res.bind]

theorem ev_call {f : Sym} {fd : Fun} {st : State} {as : List Expr} {vs : List Value} {r : Res Value} (hb : P.builtin f = none)
    (hf : st.funs f = some fd) (hn : as.length = fd.params.length) (ha : evalEs (over P inv) as st = (.ok vs, st))
    (hi : inv (.fn fd) vs st = r) : evalE (over P inv) (.call f as) st = r := by
  simp [evalE, evCall, over, hb, hf, hn, Res.bind]
  simp only [over] at ha
  simp [ha, hi]

theorem evs_nil {st : State} : evalEs (over P inv) [] st = (.ok [], st) := by simp [evalEs]

theorem evs_cons {e es v vs} {st : State} (h : evalE (over P inv) e st = (.ok v, st)) (hs : evalEs (over P inv) es st = (.ok vs, st)) :
    evalEs (over P inv) (e :: es) st = (.ok (v :: vs), st) := by
  simp [evalEs, h, hs, Res.bind]

/-- The parameters over their arguments. -/
def bound : List Sym → List Value → VMap → VMap
  | p :: ps, v :: vs, L => bound ps vs (L.put p (some v))
  | _, _, L => L

theorem bind_bound : ∀ (ps : List Sym) (vs : List Value) (e : Env), e.frames ≠ [] → e.saves = [] →
    bindParams ps vs e = { e with locals := bound ps vs e.locals } := by
  intro ps
  induction ps with
  | nil => intros; simp [bindParams, bound]
  | cons p ps ih =>
    intro vs e hf hs
    cases vs with
    | nil => simp [bindParams, bound]
    | cons v vs =>
      simp only [bindParams, bound]
      have hd : e.define p v = { e with locals := e.locals.put p (some v) } := by
        simp [Env.define, hf, hs, recordSave]
      rw [hd, ih]
      · exact hf
      · exact hs

/-- The state inside a call. -/
def inside (s : State) : State := s.withEnv (·.pushFrame)

theorem inside_frames (s : State) : (inside s).env.frames ≠ [] := by
  simp [inside, State.withEnv, Env.pushFrame]

/-- A call whose body returns. -/
theorem call_returns {n : Nat} {fd : Fun} {vs : List Value} {L' : VMap} {v : Value}
    (h : execs (over P inv) n fd.body (withLocals (inside s) (bound fd.params vs (fun _ => none)) []) = (.ok (.ret v), withLocals (inside s) L' [])) :
    invokeFun (over P inv) n fd vs s = (.ok v, s) := by
  have e : s.withEnv (fun e => bindParams fd.params vs e.pushFrame) = withLocals (inside s) (bound fd.params vs (fun _ => none)) [] := by
    simp only [State.withEnv]
    rw [bind_bound _ _ _ (by simp [Env.pushFrame]) (by simp [Env.pushFrame])]
    rfl
  simp only [invokeFun, inFrame, e, h, Res.bind, returned]
  rfl

/-! ## The queens -/

/-- The call in the loop of the search. -/
def solveCall : Expr :=
  .call 100 [.bin .add (.var 0) (intLit 1), .bin .bitOr (.var 1) (.var 8), .bin .shl (.bin .bitOr (.var 2) (.var 8)) (intLit 1),
    .bin .shr (.bin .bitOr (.var 3) (.var 8)) (intLit 1), .var 4]

/-- `solve (row, cols, diag1, diag2, n)` (`benchmarks/programs/nqueens/main.lg` 4-14). -/
def solveBody : List Stmt :=
  [.ifS (.bin .eq (.var 0) (.var 4)) [.ret (some (intLit 1))] [],
   .letS 5 false false (.bin .sub (.bin .shl (intLit 1) (.var 4)) (intLit 1)),
   .letS 6 false true (.bin .bitAnd (.var 5) (.bin .bitXor (.bin .bitOr (.bin .bitOr (.var 1) (.var 2)) (.var 3)) (intLit (-1)))),
   .letS 7 false true (intLit 0),
   .whileS (.bin .ne (.var 6) (intLit 0)) (bitBody 6 8 7 solveCall),
   .ret (some (.var 7))]

/-- The function. -/
def solveFun : Fun := ⟨[0, 1, 2, 3, 4], solveBody⟩

theorem xor_ones (x : BitVec 64) : x ^^^ BitVec.allOnes 64 = ~~~ x := by
  rw [BitVec.xor_allOnes]

theorem places_mask {n : Nat} (hn : n < 63) (y : BitVec 64) : ∀ k ∈ places (fullMask n &&& y), k < n ∧ k < 63 := by
  intro k hk
  rw [mem_places, BitVec.getLsbD_and, fullMask_bit (by omega)] at hk
  simp at hk
  omega

theorem places_length (x : BitVec 64) : (places x).length ≤ 64 := by
  unfold places
  exact (List.length_filter_le _ _).trans (by simp)

/-- The search counts. -/
theorem solve_run (P : Prims) (hb : P.builtin 100 = none) {n : Nat} (hn : n < 63) :
    ∀ (r m row : Nat) (c a b : BitVec 64) (s : State), s.funs 100 = some solveFun → row + r = n → r + 66 ≤ m →
      invokeN P (applyOp P) (fun _ _ => true) m (.fn solveFun) [.int row, V c, V a, V b, .int n] s = (.ok (.int (count n r c a b)), s) := by
  intro r
  induction r with
  | zero =>
    intro m row c a b s hs hr hm
    obtain ⟨m, rfl⟩ := Nat.exists_eq_succ_of_ne_zero (show m ≠ 0 by omega)
    have hf := inside_frames s
    show invokeFun (over P (invokeN P (applyOp P) (fun _ _ => true) m)) m solveFun _ s = _
    apply call_returns (L' := bound solveFun.params [.int row, V c, V a, V b, .int n] (fun _ => none))
    show execs _ m solveBody _ = _
    unfold solveBody
    apply exs_ret
    have h1 := in_scope hf (f := execs (over P (invokeN P (applyOp P) (fun _ _ => true) m)) m [.ret (some (intLit 1))])
      (L := bound solveFun.params [.int row, V c, V a, V b, .int n] (fun _ => none)) (sv := []) (sc := []) (exs_ret (ex_ret (ev_int (k := 1))))
    have hc := ev_bin (P := P) (inv := invokeN P (applyOp P) (fun _ _ => true) m) (op := .eq) (by decide)
      (ev_var hf (L := bound solveFun.params [.int row, V c, V a, V b, .int n] (fun _ => none)) (sv := []) (x := 0) (v := .int row) (by simp [bound, solveFun, VMap.put]))
      (ev_var hf (x := 4) (v := .int n) (by simp [bound, solveFun, VMap.put]))
      (v := .bool true) (by simp [applyOp, valEq]; omega)
    simp only [exec, hc, Res.bind]
    simpa [truthy, undo, count] using h1
  | succ r ih =>
    intro m row c a b s hs hr hm
    obtain ⟨m, rfl⟩ := Nat.exists_eq_succ_of_ne_zero (show m ≠ 0 by omega)
    have hf := inside_frames s
    show invokeFun (over P (invokeN P (applyOp P) (fun _ _ => true) m)) m solveFun _ s = _
    generalize hinv : invokeN P (applyOp P) (fun _ _ => true) m = inv at *
    generalize hL0 : bound solveFun.params [.int row, V c, V a, V b, .int n] (fun _ => none) = L0
    have hv : L0 0 = some (.int row) ∧ L0 1 = some (V c) ∧ L0 2 = some (V a) ∧ L0 3 = some (V b) ∧ L0 4 = some (.int n) := by
      subst hL0
      simp [bound, solveFun, VMap.put]
    obtain ⟨v0, v1, v2, v3, v4⟩ := hv
    have e0 := ex_if_false (P := P) (inv := inv) hf (t := [.ret (some (intLit 1))]) (n := m) (sv := [])
      (ev_bin (op := .eq) (by decide) (ev_var hf v0) (ev_var hf v4) (v := .bool false) (by simp [applyOp, valEq]; omega))
    have e1 := ex_let (P := P) (inv := inv) hf (sv := []) (x := 5) (t := false) (m := false) (n := m)
      (ev_bin (op := .sub) (by decide) (ev_bin (op := .shl) (by decide) (ev_int (k := 1)) (ev_var hf v4) (op_one_shl P hn)) (ev_int (k := 1)) (op_full P hn))
    have p1 : (L0.put 5 (some (V (fullMask n)))) 1 = some (V c) := by simp [VMap.put, v1]
    have p2 : (L0.put 5 (some (V (fullMask n)))) 2 = some (V a) := by simp [VMap.put, v2]
    have p3 : (L0.put 5 (some (V (fullMask n)))) 3 = some (V b) := by simp [VMap.put, v3]
    have p5 : (L0.put 5 (some (V (fullMask n)))) 5 = some (V (fullMask n)) := by simp [VMap.put]
    have hm1 : ∀ st : State, evalE (over P inv) (intLit (-1)) st = (.ok (V (BitVec.allOnes 64)), st) := by
      intro st; rw [ev_int, minus_one]
    have e2 := ex_let (P := P) (inv := inv) hf (sv := []) (x := 6) (t := false) (m := true) (n := m)
      (ev_bin (op := .bitAnd) (by decide) (ev_var hf p5) (ev_bin (op := .bitXor) (by decide)
        (ev_bin (op := .bitOr) (by decide) (ev_bin (op := .bitOr) (by decide) (ev_var hf p1) (ev_var hf p2) (op_or P _ _)) (ev_var hf p3) (op_or P _ _))
        (hm1 _) (op_xor P _ _)) (op_and P _ _))
    rw [xor_ones] at e2
    generalize hX : fullMask n &&& ~~~ (c ||| a ||| b) = X at *
    have e3 := ex_let (P := P) (inv := inv) hf (L := (L0.put 5 (some (V (fullMask n)))).put 6 (some (V X))) (sv := []) (x := 7) (t := false) (m := true) (n := m) (ev_int (k := 0))
    generalize hL3 : (((L0.put 5 (some (V (fullMask n)))).put 6 (some (V X))).put 7 (some (.int 0))) = L3 at *
    have q : L3 0 = some (.int row) ∧ L3 1 = some (V c) ∧ L3 2 = some (V a) ∧ L3 3 = some (V b) ∧ L3 4 = some (.int n) ∧ L3 6 = some (V X) ∧
        L3 7 = some (.int 0) := by
      subst hL3
      simp [VMap.put, v0, v1, v2, v3, v4]
    obtain ⟨q0, q1, q2, q3, q4, q6, q7⟩ := q
    have hfun : ∀ L sv, (withLocals (inside s) L sv).funs 100 = some solveFun := fun L sv => hs
    obtain ⟨L', hw, -, hacc⟩ := bit_loop (P := P) (inv := inv) hf 6 8 7 (by decide) (by decide) (by decide) solveCall
      (fun k => count n r (c ||| BitVec.twoPow 64 k) ((a ||| BitVec.twoPow 64 k) <<< 1) ((b ||| BitVec.twoPow 64 k).sshiftRight 1))
      L3 m (fun k => k < n)
      (by
        intro L sv k hk hL hbit
        have g0 : L 0 = some (.int row) := by rw [hL 0 (by decide) (by decide) (by decide), q0]
        have g1 : L 1 = some (V c) := by rw [hL 1 (by decide) (by decide) (by decide), q1]
        have g2 : L 2 = some (V a) := by rw [hL 2 (by decide) (by decide) (by decide), q2]
        have g3 : L 3 = some (V b) := by rw [hL 3 (by decide) (by decide) (by decide), q3]
        have g4 : L 4 = some (.int n) := by rw [hL 4 (by decide) (by decide) (by decide), q4]
        unfold solveCall
        refine ev_call hb (hfun L sv) rfl
          (evs_cons (ev_bin (op := .add) (by decide) (ev_var hf g0) (ev_int (k := 1)) (v := .int ((row + 1 : Nat) : Int)) (by simp [applyOp, addVals]))
            (evs_cons (ev_bin (op := .bitOr) (by decide) (ev_var hf g1) (ev_var hf hbit) (op_or P _ _))
              (evs_cons (ev_bin (op := .shl) (by decide) (ev_bin (op := .bitOr) (by decide) (ev_var hf g2) (ev_var hf hbit) (op_or P _ _)) (ev_int (k := 1)) (op_shl1 P _))
                (evs_cons (ev_bin (op := .shr) (by decide) (ev_bin (op := .bitOr) (by decide) (ev_var hf g3) (ev_var hf hbit) (op_or P _ _)) (ev_int (k := 1)) (op_shr1 P _))
                  (evs_cons (ev_var hf g4) evs_nil))))) ?_
        rw [← hinv]
        exact ih m (row + 1) _ _ _ _ (hfun L sv) (by omega) (by omega))
      (places X) X 0 m L3 [] rfl (by rw [← hX]; exact places_mask hn _) (by have := places_length X; omega) (fun _ _ _ _ => rfl) q6 q7
    apply call_returns (L' := L')
    rw [hL0]
    show execs _ m solveBody _ = _
    unfold solveBody
    rw [exs_cons e0, exs_cons e1]
    simp only [recordSave]
    rw [exs_cons e2]
    simp only [recordSave]
    rw [exs_cons e3]
    simp only [recordSave]
    rw [exs_cons (ex_while hw)]
    refine exs_ret (ex_ret (ev_var hf ?_))
    rw [hacc, zero_add, count, hX, sumOver]

/-! ## The entry -/

/-- The call of the entry for the choice in a variable. -/
def entryCall (bit : Sym) : Expr :=
  .call 100 [intLit 1, .var bit, .bin .shl (.var bit) (intLit 1), .bin .shr (.var bit) (intLit 1), .var 4]

/-- The first row of `solve`, with the arguments `0, 0, 0, 0` put in: a function of the size alone. -/
def entryBody : List Stmt :=
  [.ifS (.bin .eq (intLit 0) (.var 4)) [.ret (some (intLit 1))] [],
   .letS 5 false false (.bin .sub (.bin .shl (intLit 1) (.var 4)) (intLit 1)),
   .letS 6 false true (.var 5),
   .letS 7 false true (intLit 0),
   .whileS (.bin .ne (.var 6) (intLit 0)) (bitBody 6 8 7 (entryCall 8)),
   .ret (some (.var 7))]

/-- What it should become. -/
def halfBody (mid : Sym) : List Stmt :=
  [.ifS (.bin .eq (intLit 0) (.var 4)) [.ret (some (intLit 1))] [],
   .letS 5 false false (.bin .sub (.bin .shl (intLit 1) (.var 4)) (intLit 1)),
   .letS 6 false true (.bin .bitAnd (.var 5) (.bin .sub (.bin .shl (intLit 1) (.bin .shr (.var 4) (intLit 1))) (intLit 1))),
   .letS 7 false true (intLit 0),
   .whileS (.bin .ne (.var 6) (intLit 0)) (bitBody 6 8 7 (entryCall 8)),
   .set 7 (.bin .mul (.var 7) (intLit 2)),
   .ifS (.bin .ne (.bin .mod (.var 4) (intLit 2)) (intLit 0))
     [.letS mid false false (.bin .shl (intLit 1) (.bin .shr (.var 4) (intLit 1))),
      .set 7 (.bin .add (.var 7) (entryCall mid))] [],
   .ret (some (.var 7))]

theorem entry_call (hf : s.env.frames ≠ []) (hb : P.builtin 100 = none) {fd : Fun} (hfun : s.funs 100 = some fd) (hp : fd.params.length = 5)
    {n : Nat} {h : Nat → Int}
    (hinv : ∀ k, k < n → ∀ st : State, st.funs = s.funs → inv (.fn fd) [.int 1, V (BitVec.twoPow 64 k), V (BitVec.twoPow 64 k <<< 1),
      V ((BitVec.twoPow 64 k).sshiftRight 1), .int n] st = (.ok (.int (h k)), st))
    {L sv} {k : Nat} {bit : Sym} (hk : k < n) (hL : L 4 = some (.int n)) (hbit : L bit = some (V (BitVec.twoPow 64 k))) :
    evalE (over P inv) (entryCall bit) (withLocals s L sv) = (.ok (.int (h k)), withLocals s L sv) := by
  unfold entryCall
  exact ev_call hb hfun (by simp [hp])
    (evs_cons (ev_int (k := 1)) (evs_cons (ev_var hf hbit)
      (evs_cons (ev_bin (op := .shl) (by decide) (ev_var hf hbit) (ev_int (k := 1)) (op_shl1 P _))
        (evs_cons (ev_bin (op := .shr) (by decide) (ev_var hf hbit) (ev_int (k := 1)) (op_shr1 P _))
          (evs_cons (ev_var hf hL) evs_nil))))) (hinv k hk _ rfl)

theorem full_sum {n m : Nat} (hn : n < 63) (hm : m ≤ n) (h : Nat → Int) :
    ((places (fullMask n &&& fullMask m)).map h).sum = ∑ k ∈ range m, h k := by
  have hbit : ∀ j, (fullMask n &&& fullMask m).getLsbD j = decide (j < m) := by
    intro j
    rw [BitVec.getLsbD_and, fullMask_bit (by omega), fullMask_bit (by omega)]
    by_cases hj : j < m
    · simp [hj, show j < n by omega]
    · simp [hj]
  have := sumOver_eq (x := fullMask n &&& fullMask m) (n := m) (by omega) (by intro j hj; rw [hbit]; simp; omega) h
  rw [sumOver] at this
  rw [this]
  apply Finset.sum_congr rfl
  intro k hk
  rw [Finset.mem_range] at hk
  simp [hbit, hk]

/-- The size 0. -/
theorem entry_zero {m : Nat} {rest : List Stmt} {s : State} :
    invokeFun (over P inv) m ⟨[4], .ifS (.bin .eq (intLit 0) (.var 4)) [.ret (some (intLit 1))] [] :: rest⟩ [.int 0] s = (.ok (.int 1), s) := by
  have hf := inside_frames s
  apply call_returns (L' := bound [4] [.int 0] (fun _ => none))
  apply exs_ret
  have h1 := in_scope hf (f := execs (over P inv) m [.ret (some (intLit 1))])
    (L := bound [4] [.int 0] (fun _ => none)) (sv := []) (sc := []) (exs_ret (ex_ret (ev_int (k := 1))))
  have hc := ev_bin (P := P) (inv := inv) (op := .eq) (by decide) (ev_int (k := 0))
    (ev_var hf (L := bound [4] [.int 0] (fun _ => none)) (sv := []) (x := 4) (v := .int 0) (by simp [bound, VMap.put]))
    (v := .bool true) (by simp [applyOp, valEq])
  simp only [exec, hc, Res.bind]
  simpa [truthy, undo] using h1

/-- The loop of the entry over the lower `m` columns. -/
theorem entry_loop (hf : s.env.frames ≠ []) (hb : P.builtin 100 = none) {fd : Fun} (hfun : s.funs 100 = some fd) (hp : fd.params.length = 5)
    {n m fuel : Nat} (hn : n < 63) (hm : m ≤ n) (hfuel : 65 ≤ fuel) {h : Nat → Int}
    (hinv : ∀ k, k < n → ∀ st : State, st.funs = s.funs → inv (.fn fd) [.int 1, V (BitVec.twoPow 64 k), V (BitVec.twoPow 64 k <<< 1),
      V ((BitVec.twoPow 64 k).sshiftRight 1), .int n] st = (.ok (.int (h k)), st))
    {L : VMap} (h4 : L 4 = some (.int n)) (h6 : L 6 = some (V (fullMask n &&& fullMask m))) (h7 : L 7 = some (.int 0)) :
    ∃ L', exec (over P inv) fuel (.whileS (.bin .ne (.var 6) (intLit 0)) (bitBody 6 8 7 (entryCall 8))) (withLocals s L []) =
        (.ok .cont, withLocals s L' []) ∧ L' 4 = some (.int n) ∧ L' 7 = some (.int (∑ k ∈ range m, h k)) := by
  obtain ⟨L', hw, hL', hacc⟩ := bit_loop (P := P) (inv := inv) hf 6 8 7 (by decide) (by decide) (by decide) (entryCall 8) h L fuel (fun k => k < n)
    (by
      intro L1 sv k hk hL hbit
      exact entry_call hf hb hfun hp hinv hk (by rw [hL 4 (by decide) (by decide) (by decide), h4]) hbit)
    (places (fullMask n &&& fullMask m)) _ 0 fuel L [] rfl (places_mask hn _) (by have := places_length (fullMask n &&& fullMask m); omega)
    (fun _ _ _ _ => rfl) h6 h7
  refine ⟨L', ex_while hw, by rw [hL' 4 (by decide) (by decide) (by decide), h4], ?_⟩
  rw [hacc, full_sum hn hm, zero_add]

theorem entry_run (hb : P.builtin 100 = none) {s : State} {fd : Fun} (hfun : s.funs 100 = some fd) (hp : fd.params.length = 5)
    {n fuel : Nat} (h0 : n ≠ 0) (hn : n < 63) (hfuel : 65 ≤ fuel) {h : Nat → Int}
    (hinv : ∀ k, k < n → ∀ st : State, st.funs = s.funs → inv (.fn fd) [.int 1, V (BitVec.twoPow 64 k), V (BitVec.twoPow 64 k <<< 1),
      V ((BitVec.twoPow 64 k).sshiftRight 1), .int n] st = (.ok (.int (h k)), st)) :
    invokeFun (over P inv) fuel ⟨[4], entryBody⟩ [.int n] s = (.ok (.int (∑ k ∈ range n, h k)), s) := by
  have hf := inside_frames s
  generalize hL0 : bound [4] [.int n] (fun _ => none) = L0
  have v4 : L0 4 = some (.int n) := by subst hL0; simp [bound, VMap.put]
  have e0 := ex_if_false (P := P) (inv := inv) hf (t := [.ret (some (intLit 1))]) (n := fuel) (sv := [])
    (ev_bin (op := .eq) (by decide) (ev_int (k := 0)) (ev_var hf v4) (v := .bool false) (by simp [applyOp, valEq]; omega))
  have e1 := ex_let (P := P) (inv := inv) hf (sv := []) (x := 5) (t := false) (m := false) (n := fuel)
    (ev_bin (op := .sub) (by decide) (ev_bin (op := .shl) (by decide) (ev_int (k := 1)) (ev_var hf v4) (op_one_shl P hn)) (ev_int (k := 1)) (op_full P hn))
  have p5 : (L0.put 5 (some (V (fullMask n)))) 5 = some (V (fullMask n)) := by simp [VMap.put]
  have e2 := ex_let (P := P) (inv := inv) hf (sv := []) (x := 6) (t := false) (m := true) (n := fuel) (ev_var hf p5)
  have e3 := ex_let (P := P) (inv := inv) hf (L := (L0.put 5 (some (V (fullMask n)))).put 6 (some (V (fullMask n)))) (sv := []) (x := 7) (t := false) (m := true) (n := fuel) (ev_int (k := 0))
  obtain ⟨L', hw, -, h7⟩ := entry_loop (P := P) (inv := inv) (s := inside s) hf hb (fd := fd) hfun hp hn (le_refl n) hfuel hinv
    (L := ((L0.put 5 (some (V (fullMask n)))).put 6 (some (V (fullMask n)))).put 7 (some (.int 0)))
    (by simp [VMap.put, v4]) (by simp [VMap.put]) (by simp [VMap.put])
  apply call_returns (L' := L')
  show execs _ fuel entryBody (withLocals (inside s) (bound [4] [.int n] (fun _ => none)) []) = _
  rw [hL0]
  unfold entryBody
  rw [exs_cons e0, exs_cons e1]
  simp only [recordSave]
  rw [exs_cons e2]
  simp only [recordSave]
  rw [exs_cons e3]
  simp only [recordSave]
  rw [exs_cons hw]
  exact exs_ret (ex_ret (ev_var hf h7))

theorem half_run (hb : P.builtin 100 = none) {s : State} {fd : Fun} (hfun : s.funs 100 = some fd) (hp : fd.params.length = 5)
    {n fuel : Nat} (h0 : n ≠ 0) (hn : n < 63) (hfuel : 65 ≤ fuel) {h : Nat → Int} {mid : Sym} (hmid : 8 < mid)
    (hinv : ∀ k, k < n → ∀ st : State, st.funs = s.funs → inv (.fn fd) [.int 1, V (BitVec.twoPow 64 k), V (BitVec.twoPow 64 k <<< 1),
      V ((BitVec.twoPow 64 k).sshiftRight 1), .int n] st = (.ok (.int (h k)), st)) :
    invokeFun (over P inv) fuel ⟨[4], halfBody mid⟩ [.int n] s =
      (.ok (.int ((∑ k ∈ range (n / 2), h k) * 2 + if n % 2 ≠ 0 then h (n / 2) else 0)), s) := by
  have hf := inside_frames s
  have hm7 : (7 : Sym) ≠ mid := by rintro rfl; exact absurd hmid (by decide)
  have hm4 : (4 : Sym) ≠ mid := by rintro rfl; exact absurd hmid (by decide)
  generalize hL0 : bound [4] [.int n] (fun _ => none) = L0
  have v4 : L0 4 = some (.int n) := by subst hL0; simp [bound, VMap.put]
  have e0 := ex_if_false (P := P) (inv := inv) hf (t := [.ret (some (intLit 1))]) (n := fuel) (sv := [])
    (ev_bin (op := .eq) (by decide) (ev_int (k := 0)) (ev_var hf v4) (v := .bool false) (by simp [applyOp, valEq]; omega))
  have e1 := ex_let (P := P) (inv := inv) hf (sv := []) (x := 5) (t := false) (m := false) (n := fuel)
    (ev_bin (op := .sub) (by decide) (ev_bin (op := .shl) (by decide) (ev_int (k := 1)) (ev_var hf v4) (op_one_shl P hn)) (ev_int (k := 1)) (op_full P hn))
  have p5 : (L0.put 5 (some (V (fullMask n)))) 5 = some (V (fullMask n)) := by simp [VMap.put]
  have p4 : (L0.put 5 (some (V (fullMask n)))) 4 = some (.int n) := by simp [VMap.put, v4]
  have hn2 : n / 2 < 63 := by omega
  have e2 := ex_let (P := P) (inv := inv) hf (sv := []) (x := 6) (t := false) (m := true) (n := fuel)
    (ev_bin (op := .bitAnd) (by decide) (ev_var hf p5) (ev_bin (op := .sub) (by decide) (ev_bin (op := .shl) (by decide) (ev_int (k := 1))
      (ev_bin (op := .shr) (by decide) (ev_var hf p4) (ev_int (k := 1)) (op_half P hn)) (op_one_shl P hn2)) (ev_int (k := 1)) (op_full P hn2)) (op_and P _ _))
  have e3 := ex_let (P := P) (inv := inv) hf (L := (L0.put 5 (some (V (fullMask n)))).put 6 (some (V (fullMask n &&& fullMask (n / 2))))) (sv := []) (x := 7) (t := false) (m := true) (n := fuel) (ev_int (k := 0))
  obtain ⟨L', hw, h4, h7⟩ := entry_loop (P := P) (inv := inv) (s := inside s) hf hb (fd := fd) hfun hp hn (show n / 2 ≤ n by omega) hfuel hinv
    (L := ((L0.put 5 (some (V (fullMask n)))).put 6 (some (V (fullMask n &&& fullMask (n / 2))))).put 7 (some (.int 0)))
    (by simp [VMap.put, v4]) (by simp [VMap.put]) (by simp [VMap.put])
  generalize hS : ∑ k ∈ range (n / 2), h k = S at *
  have e5 := ex_set (P := P) (inv := inv) hf (L := L') (sv := []) (x := 7) (n := fuel) (by simp [h7])
    (ev_bin (op := .mul) (by decide) (ev_var hf h7) (ev_int (k := 2)) (v := .int (S * 2)) (by simp [applyOp, mulVals]))
  have r7 : (L'.put 7 (some (.int (S * 2)))) 7 = some (.int (S * 2)) := by simp [VMap.put]
  have r4 : (L'.put 7 (some (.int (S * 2)))) 4 = some (.int n) := by simp [VMap.put, h4]
  generalize hL5 : L'.put 7 (some (.int (S * 2))) = L5 at *
  have hcond := ev_bin (P := P) (inv := inv) (op := .ne) (by decide)
    (ev_bin (op := .mod) (by decide) (ev_var hf (sv := []) r4) (ev_int (k := 2)) (op_mod2 P n)) (ev_int (k := 0))
    (v := .bool (decide (n % 2 ≠ 0))) (by
      simp only [applyOp, valEq]
      by_cases hc : n % 2 = 0
      · simp [hc]
      · simp only [ne_eq, hc, not_false_eq_true, decide_true]
        have : ((n % 2 : Nat) : Int) ≠ 0 := by exact_mod_cast hc
        generalize ((n % 2 : Nat) : Int) = z at this
        simp [this])
  have e6 : ∃ L6, exec (over P inv) fuel (.ifS (.bin .ne (.bin .mod (.var 4) (intLit 2)) (intLit 0))
     [.letS mid false false (.bin .shl (intLit 1) (.bin .shr (.var 4) (intLit 1))),
      .set 7 (.bin .add (.var 7) (entryCall mid))] []) (withLocals (inside s) L5 []) = (.ok .cont, withLocals (inside s) L6 []) ∧
      L6 7 = some (.int (S * 2 + if n % 2 ≠ 0 then h (n / 2) else 0)) := by
    by_cases hc : n % 2 = 0
    · refine ⟨L5, ?_, by simp [hc, r7]⟩
      apply ex_if_false hf
      rw [hcond]
      simp [hc]
    · have hk : n / 2 < n := by omega
      have f1 := ex_let (P := P) (inv := inv) hf (sv := [[]]) (x := mid) (t := false) (m := false) (n := fuel)
        (ev_bin (op := .shl) (by decide) (ev_int (k := 1)) (ev_bin (op := .shr) (by decide) (ev_var hf r4) (ev_int (k := 1)) (op_half P hn)) (op_one_shl P hn2))
      have s7 : (L5.put mid (some (V (BitVec.twoPow 64 (n / 2))))) 7 = some (.int (S * 2)) := by
        rw [put_other _ _ hm7]; exact r7
      have s4 : (L5.put mid (some (V (BitVec.twoPow 64 (n / 2))))) 4 = some (.int n) := by
        rw [put_other _ _ hm4]; exact r4
      have f2 := ex_set (P := P) (inv := inv) hf (sv := [[(mid, L5 mid)]]) (x := 7) (n := fuel) (by simp [s7])
        (ev_bin (op := .add) (by decide) (ev_var hf s7)
          (entry_call (P := P) (inv := inv) (s := inside s) hf hb (fd := fd) hfun hp hinv hk s4 (put_self _ _ _))
          (v := .int (S * 2 + h (n / 2))) (by simp [applyOp, addVals]))
      have fb : execs (over P inv) fuel [.letS mid false false (.bin .shl (intLit 1) (.bin .shr (.var 4) (intLit 1))),
          .set 7 (.bin .add (.var 7) (entryCall mid))] (withLocals (inside s) L5 [[]]) = (.ok .cont, withLocals (inside s)
            ((L5.put mid (some (V (BitVec.twoPow 64 (n / 2))))).put 7 (some (.int (S * 2 + h (n / 2))))) [[(mid, L5 mid)]]) := by
        rw [exs_cons f1]
        simp only [recordSave]
        rw [exs_cons f2]
        simp only [execs]
      have fs := in_scope hf fb
      refine ⟨undo ((L5.put mid (some (V (BitVec.twoPow 64 (n / 2))))).put 7 (some (.int (S * 2 + h (n / 2))))) [(mid, L5 mid)], ?_, ?_⟩
      · simp only [exec, hcond, Res.bind]
        simp only [ne_eq, hc, not_false_eq_true, decide_true, truthy, if_true]
        exact fs
      · simp [undo, VMap.put, hm7, hc]
  obtain ⟨L6, e6, h67⟩ := e6
  apply call_returns (L' := L6)
  show execs _ fuel (halfBody mid) (withLocals (inside s) (bound [4] [.int n] (fun _ => none)) []) = _
  rw [hL0]
  unfold halfBody
  rw [exs_cons e0, exs_cons e1]
  simp only [recordSave]
  rw [exs_cons e2]
  simp only [recordSave]
  rw [exs_cons e3]
  simp only [recordSave]
  rw [exs_cons hw, exs_cons e5, exs_cons e6]
  exact exs_ret (ex_ret (ev_var hf h67))

end Verif.Lang.Symm
