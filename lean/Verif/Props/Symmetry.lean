import Verif.Lang.ColourRun
import Verif.Props.Fold
/-!
# C116: halving and collapsing counting searches

A counting search that is cut in half by its mirror symmetry, or done once for values that can be exchanged, prints what it
printed before.
-/
namespace Verif.Props
open Verif.Lang Verif.Lang.Symm Finset

/-! ## The certificate -/

/-- The mirror image on the columns below `n`, bit by bit: column `j` of the image is column `n - 1 - j`. -/
def Mirrors (n : Nat) (v w : BitVec 64) : Prop := ∀ j, w.getLsbD j = (decide (j < n) && v.getLsbD (n - 1 - j))

/-- C116: the compiler's mirror is the mirror. -/
theorem C116_mirror (n : Nat) (hn : n ≤ 64) (v : BitVec 64) : Mirrors n v (revN v n) := fun j => revN_bit v hn j

/-- C116: the three facts the compiler tests on up to 16 columns hold on every board that fits a word: the free columns of the
mirror image are the mirror image of the free columns, and a shift of a mirrored diagonal is the mirrored other shift. -/
theorem C116_identities (n : Nat) (hn : n < 64) (v : BitVec 64) (hv : ∀ j, n ≤ j → v.getLsbD j = false) : reflects n v = true := by
  simp [reflects, mirror_avail v hn, mirror_left v hn, mirror_right v hn (hv n le_rfl)]

/-- C116: the test passes, for the width in use and for any other, so the pass is never switched off. -/
theorem C116_certificate (w : Nat) (hw : w ≤ 63) : checkReflection w = true := by
  simp only [checkReflection, List.all_eq_true, List.mem_range]
  intro k hk v hv
  apply C116_identities (k + 1) (by omega)
  intro j hj
  rw [BitVec.getLsbD_ofNat, Nat.testBit_lt_two_pow (lt_of_lt_of_le hv (Nat.pow_le_pow_right (by omega) hj))]
  simp

example : checkReflection 16 = true := C116_certificate 16 (by omega)

/-! ## The first row -/

/-- The arguments of the search for the second row after a queen in column `k`: the taken columns and both diagonals. -/
def afterFirst (n k : Nat) : List Value :=
  [.int 1, V (BitVec.twoPow 64 k), V (BitVec.twoPow 64 k <<< 1), V ((BitVec.twoPow 64 k).sshiftRight 1), .int n]

/-- C116: the first row of a search, done for the lower half of the columns and doubled, gives what it gave, if the search, whatever
it is, gives each column the number of its mirror image. -/
theorem C116_entry (P : Prims) (inv : Target → List Value → State → Res Value) (hb : P.builtin 100 = none) (s : State) (fd : Fun)
    (hfun : s.funs 100 = some fd) (hp : fd.params.length = 5) (n fuel : Nat) (hn : n ≤ 62) (hfuel : 65 ≤ fuel) (h : Nat → Int)
    (mid vsym : Sym) (hmid : 8 < mid) (vals : List (Sym × Nat)) (hvals : vals.lookup 101 = none) (valueOk : Bool)
    (hinv : ∀ k, k < n → ∀ st : State, st.funs = s.funs → inv (.fn fd) (afterFirst n k) st = (.ok (.int (h k)), st))
    (hsym : ∀ k, k < n → h k = h (n - 1 - k)) :
    breakBody true valueOk mid vsym [100] vals 101 [4] entryBody ≠ entryBody ∧
    invokeFun (over P inv) fuel ⟨[4], breakBody true valueOk mid vsym [100] vals 101 [4] entryBody⟩ [.int n] s =
      invokeFun (over P inv) fuel ⟨[4], entryBody⟩ [.int n] s := by
  have hbody : breakBody true valueOk mid vsym [100] vals 101 [4] entryBody = halfBody mid := by
    rw [breakBody, hvals]
    rfl
  rw [hbody]
  refine ⟨by simp [halfBody, entryBody], ?_⟩
  rcases Nat.eq_zero_or_pos n with rfl | h0
  · exact (entry_zero (P := P) (inv := inv)).trans (entry_zero (P := P) (inv := inv)).symm
  · rw [entry_run hb hfun hp (by omega) (by omega) hfuel hinv, half_run hb hfun hp (by omega) (by omega) hfuel hmid hinv, sum_half h n hsym]

/-! ## The queens -/

/-- The program: the search, the first row, and the count for a size. -/
def queens (n : Nat) : List Stmt :=
  [.funDef 100 [(0, false), (1, false), (2, false), (3, false), (4, false)] solveBody,
   .funDef 101 [(4, false)] entryBody,
   .showS (.call 101 [intLit n])]

private theorem queens_sym {n : Nat} (hn : n < 63) (k : Nat) (hk : k < n) :
    count n (n - 1) (BitVec.twoPow 64 k) (BitVec.twoPow 64 k <<< 1) ((BitVec.twoPow 64 k).sshiftRight 1) =
      count n (n - 1) (BitVec.twoPow 64 (n - 1 - k)) (BitVec.twoPow 64 (n - 1 - k) <<< 1) ((BitVec.twoPow 64 (n - 1 - k)).sshiftRight 1) := by
  have hmsb : ∀ k, k < 63 → (BitVec.twoPow 64 k).msb = false := by
    intro k hk
    rw [BitVec.msb_eq_getLsbD_last, BitVec.getLsbD_twoPow]
    simp
    omega
  apply count_mirror (by omega)
  · intro j hj
    rw [BitVec.getLsbD_twoPow, BitVec.getLsbD_twoPow, Bool.eq_iff_iff]
    simp
    omega
  · intro j hj
    rw [BitVec.getLsbD_shiftLeft, BitVec.getLsbD_sshiftRight, hmsb k (by omega), BitVec.getLsbD_twoPow, BitVec.getLsbD_twoPow, Bool.eq_iff_iff]
    simp [show 1 + (n - 1 - j) < 64 by omega]
    omega
  · intro j hj
    rw [BitVec.getLsbD_sshiftRight, BitVec.getLsbD_shiftLeft, hmsb _ (by omega), BitVec.getLsbD_twoPow, BitVec.getLsbD_twoPow, Bool.eq_iff_iff]
    simp [show 1 + j < 64 by omega]
    omega
  · intro j hj
    rw [BitVec.getLsbD_sshiftRight, hmsb k (by omega), BitVec.getLsbD_twoPow]
    have : ¬ k = 1 + j := by omega
    simp [this]
  · intro j hj
    rw [BitVec.getLsbD_sshiftRight, hmsb _ (by omega), BitVec.getLsbD_twoPow]
    have : ¬ n - 1 - k = 1 + j := by omega
    simp [this]

private theorem run_with (P : Prims) (hb : P.builtin 101 = none) (n m : Nat) (body : List Stmt) (v : Int)
    (h : ∀ s : State, s.funs 100 = some solveFun →
      invokeFun (over P (invokeN P (applyOp P) (fun _ _ => true) m)) m ⟨[4], body⟩ [.int n] s = (.ok (.int v), s)) :
    run P (m + 1) [.funDef 100 [(0, false), (1, false), (2, false), (3, false), (4, false)] solveBody, .funDef 101 [(4, false)] body,
      .showS (.call 101 [intLit n])] = ⟨none, [disp P (.int v)]⟩ := by
  show outcome (execs (over P (invokeN P (applyOp P) (fun _ _ => true) (m + 1))) (m + 1) _ {}) = _
  rw [exs_cons (b := defineFun 100 solveFun {}) (by simp [exec, solveFun]),
    exs_cons (b := defineFun 101 ⟨[4], body⟩ (defineFun 100 solveFun {})) (by simp [exec])]
  have hc := ev_call (P := P) (inv := invokeN P (applyOp P) (fun _ _ => true) (m + 1)) (f := 101) (fd := ⟨[4], body⟩)
    (st := defineFun 101 ⟨[4], body⟩ (defineFun 100 solveFun {})) (as := [intLit n]) hb (by simp [defineFun]) rfl
    (evs_cons (ev_int (k := n)) evs_nil) rfl
  have h2 := h (defineFun 101 ⟨[4], body⟩ (defineFun 100 solveFun {})) (by simp [defineFun])
  have h3 : invokeN P (applyOp P) (fun _ _ => true) (m + 1) (.fn ⟨[4], body⟩) [.int n] (defineFun 101 ⟨[4], body⟩ (defineFun 100 solveFun {})) =
      (.ok (.int v), defineFun 101 ⟨[4], body⟩ (defineFun 100 solveFun {})) := h2
  rw [h3] at hc
  rw [exs_cons (b := { defineFun 101 ⟨[4], body⟩ (defineFun 100 solveFun {}) with out := [disp P (.int v)] }) (by
    simp only [exec, hc, Res.bind, doShow]
    rfl)]
  simp [execs, outcome]

/-- C116: the queens, counted by the program of the benchmark with its first row in a function of its own, are as many after the pass
as before, on every board of up to 62 columns. -/
theorem C116_queens (P : Prims) (hb : P.builtin 100 = none) (hb' : P.builtin 101 = none) (n m : Nat) (hn : n ≤ 62) (hm : n + 67 ≤ m)
    (valueOk : Bool) (mid vsym : Sym) (hmid : 8 < mid) :
    ∃ p, breakSymmetry (checkReflection 16) valueOk mid vsym (queens n) = some p ∧ p ≠ queens n ∧ run P m p = run P m (queens n) ∧
      (run P m (queens n)).error = none := by
  obtain ⟨m, rfl⟩ := Nat.exists_eq_succ_of_ne_zero (show m ≠ 0 by omega)
  refine ⟨_, by rw [C116_certificate 16 (by omega)]; rfl, ?_, ?_⟩
  · intro e
    have e' : [Stmt.funDef 100 [(0, false), (1, false), (2, false), (3, false), (4, false)] solveBody, .funDef 101 [(4, false)] (halfBody mid),
      .showS (.call 101 [intLit n])] = queens n := e
    simp [queens, halfBody, entryBody] at e'
  show run P (m + 1) [.funDef 100 _ solveBody, .funDef 101 [(4, false)] (halfBody mid), .showS (.call 101 [intLit n])] = _ ∧ _
  rcases Nat.eq_zero_or_pos n with rfl | h0
  · rw [queens, run_with P hb' 0 m entryBody 1 (fun s _ => entry_zero (P := P)),
      run_with P hb' 0 m (halfBody mid) 1 (fun s _ => entry_zero (P := P))]
    exact ⟨rfl, rfl⟩
  · let h : Nat → Int := fun k => count n (n - 1) (BitVec.twoPow 64 k) (BitVec.twoPow 64 k <<< 1) ((BitVec.twoPow 64 k).sshiftRight 1)
    have hinv : ∀ s : State, s.funs 100 = some solveFun → ∀ k, k < n → ∀ st : State, st.funs = s.funs →
        invokeN P (applyOp P) (fun _ _ => true) m (.fn solveFun) [.int 1, V (BitVec.twoPow 64 k), V (BitVec.twoPow 64 k <<< 1),
          V ((BitVec.twoPow 64 k).sshiftRight 1), .int n] st = (.ok (.int (h k)), st) := by
      intro s hs k _ st hst
      exact solve_run P hb (by omega) (n - 1) m 1 _ _ _ st (by rw [hst, hs]) (by omega) (by omega)
    have e1 := run_with P hb' n m entryBody (∑ k ∈ range n, h k) (fun s hs =>
      entry_run hb hs rfl (by omega) (by omega) (by omega) (hinv s hs))
    have e2 := run_with P hb' n m (halfBody mid) ((∑ k ∈ range (n / 2), h k) * 2 + if n % 2 ≠ 0 then h (n / 2) else 0) (fun s hs =>
      half_run hb hs rfl (by omega) (by omega) (by omega) hmid (hinv s hs))
    rw [queens, e1, e2, sum_half h n (fun k hk => queens_sym (by omega) k hk)]
    exact ⟨rfl, rfl⟩

example : ∃ p, breakSymmetry (checkReflection 16) true 10 11 (queens 8) = some p ∧ p ≠ queens 8 ∧ run sampleP 80 p = run sampleP 80 (queens 8) ∧
    (run sampleP 80 (queens 8)).error = none :=
  C116_queens sampleP rfl rfl 8 80 (by omega) (by omega) true 10 11 (by decide)

/-! ## Values that can be exchanged -/

/-- C116: a search done for the value 1 and multiplied by the number of values gives what it gave, if the number of values is not
negative and the search, whatever it is, gives each value the same number. -/
theorem C116_value_partial (P : Prims) (inv : Target → List Value → State → Res Value) (hb : P.builtin 200 = none) (s : State) (fd : Fun)
    (hfun : s.funs 200 = some fd) (hp : fd.params.length = 4) (N K v : Int) (fuel : Nat) (hK : 0 ≤ K) (hfuel : K.toNat < fuel)
    (reflOk : Bool) (mid vsym : Sym) (hv : 26 < vsym)
    (hinv : ∀ c, 1 ≤ c → c ≤ max K 1 → ∀ st : State, st.funs = s.funs →
      inv (.fn fd) [.int 2, .int c, .int N, .int K] st = (.ok (.int v), st)) :
    breakBody reflOk true mid vsym [] [(200, 1)] 201 [22, 23] countBody ≠ countBody ∧
    invokeFun (over P inv) fuel ⟨[22, 23], breakBody reflOk true mid vsym [] [(200, 1)] 201 [22, 23] countBody⟩ [.int N, .int K] s =
      invokeFun (over P inv) fuel ⟨[22, 23], countBody⟩ [.int N, .int K] s := by
  have hbody : breakBody reflOk true mid vsym [] [(200, 1)] 201 [22, 23] countBody = onceBody vsym := by
    cases reflOk <;> rfl
  rw [hbody]
  refine ⟨by simp [onceBody, countBody], ?_⟩
  rw [once_run hb hfun hp hv (hinv 1 (by omega) (by omega)),
    count_run hb hfun hp hK hfuel (fun c h1 h2 => hinv c h1 (by omega))]

/-- The program: the colouring of a path of `n` nodes in `k` colours, one after the other, and the count for all first colours. -/
def colouring (N K : Int) : List Stmt :=
  [.funDef 200 [(20, false), (21, false), (22, false), (23, false)] colourBody,
   .funDef 201 [(22, false), (23, false)] countBody,
   .showS (.call 201 [intLit N, intLit K])]

private theorem run_colouring (P : Prims) (hb : P.builtin 201 = none) (N K : Int) (m : Nat) (body : List Stmt) (v : Int)
    (h : ∀ s : State, s.funs 200 = some colourFun →
      invokeFun (over P (invokeN P (applyOp P) (fun _ _ => true) m)) m ⟨[22, 23], body⟩ [.int N, .int K] s = (.ok (.int v), s)) :
    run P (m + 1) [.funDef 200 [(20, false), (21, false), (22, false), (23, false)] colourBody, .funDef 201 [(22, false), (23, false)] body,
      .showS (.call 201 [intLit N, intLit K])] = ⟨none, [disp P (.int v)]⟩ := by
  show outcome (execs (over P (invokeN P (applyOp P) (fun _ _ => true) (m + 1))) (m + 1) _ {}) = _
  rw [exs_cons (b := defineFun 200 colourFun {}) (by simp [exec, colourFun]),
    exs_cons (b := defineFun 201 ⟨[22, 23], body⟩ (defineFun 200 colourFun {})) (by simp [exec])]
  have hc := ev_call (P := P) (inv := invokeN P (applyOp P) (fun _ _ => true) (m + 1)) (f := 201) (fd := ⟨[22, 23], body⟩)
    (st := defineFun 201 ⟨[22, 23], body⟩ (defineFun 200 colourFun {})) (as := [intLit N, intLit K]) hb (by simp [defineFun]) rfl
    (evs_cons (ev_int (k := N)) (evs_cons (ev_int (k := K)) evs_nil)) rfl
  have h3 : invokeN P (applyOp P) (fun _ _ => true) (m + 1) (.fn ⟨[22, 23], body⟩) [.int N, .int K]
      (defineFun 201 ⟨[22, 23], body⟩ (defineFun 200 colourFun {})) =
      (.ok (.int v), defineFun 201 ⟨[22, 23], body⟩ (defineFun 200 colourFun {})) :=
    h (defineFun 201 ⟨[22, 23], body⟩ (defineFun 200 colourFun {})) (by simp [defineFun])
  rw [h3] at hc
  rw [exs_cons (b := { defineFun 201 ⟨[22, 23], body⟩ (defineFun 200 colourFun {}) with out := [disp P (.int v)] }) (by
    simp only [exec, hc, Res.bind, doShow]
    rfl)]
  simp [execs, outcome]

/-- C116: the colourings of a path, counted by the project's program, are as many after the pass as before, for every number of nodes
and every number of colours that is not negative; and they are `k * (k - 1) ^ (n - 1)`. -/
theorem C116_colouring_partial (P : Prims) (hb : P.builtin 200 = none) (hb' : P.builtin 201 = none) (N K : Int) (hK : 0 ≤ K) (m : Nat)
    (hm : (N - 1).toNat + K.toNat + 3 ≤ m) (reflOk : Bool) (mid vsym : Sym) (hv : 26 < vsym) :
    ∃ p, breakSymmetry reflOk true mid vsym (colouring N K) = some p ∧ p ≠ colouring N K ∧
      run P m p = run P m (colouring N K) ∧ run P m (colouring N K) = ⟨none, [disp P (.int (K * (K - 1) ^ (N - 1).toNat))]⟩ := by
  obtain ⟨m, rfl⟩ := Nat.exists_eq_succ_of_ne_zero (show m ≠ 0 by omega)
  have hp : breakSymmetry reflOk true mid vsym (colouring N K) = some
      [.funDef 200 [(20, false), (21, false), (22, false), (23, false)] colourBody, .funDef 201 [(22, false), (23, false)] (onceBody vsym),
        .showS (.call 201 [intLit N, intLit K])] := by
    cases reflOk <;> rfl
  refine ⟨_, hp, by simp [colouring, onceBody, countBody], ?_⟩
  have hinv : ∀ s : State, s.funs 200 = some colourFun → ∀ c, ∀ st : State, st.funs = s.funs →
      invokeN P (applyOp P) (fun _ _ => true) m (.fn colourFun) [.int 2, .int c, .int N, .int K] st =
        (.ok (.int (ways K (N - 1).toNat c)), st) := by
    intro s hs c st hst
    exact colour_run P hb N K (N - 1).toNat m 2 c st (by rw [hst, hs]) (by omega) (by omega)
  have hways : ∀ c, 1 ≤ c → c ≤ K → ways K (N - 1).toNat c = (K - 1) ^ (N - 1).toNat := fun c => ways_eq _ c
  have e1 := run_colouring P hb' N K m countBody (K * (K - 1) ^ (N - 1).toNat) (fun s hs =>
    count_run hb hs rfl hK (by omega) (fun c h1 h2 st hst => by rw [hinv s hs c st hst, hways c h1 h2]))
  have e2 := run_colouring P hb' N K m (onceBody vsym) (K * ways K (N - 1).toNat 1) (fun s hs =>
    once_run hb hs rfl hv (hinv s hs 1))
  have e3 : K * ways K (N - 1).toNat 1 = K * (K - 1) ^ (N - 1).toNat := by
    rcases eq_or_lt_of_le hK with h0 | h0
    · rw [← h0]; simp
    · rw [hways 1 (by omega) (by omega)]
  rw [colouring, e1, e2, e3]
  exact ⟨rfl, rfl⟩

example : ∃ p, breakSymmetry true true 10 30 (colouring 3 4) = some p ∧ p ≠ colouring 3 4 ∧
    run sampleP 20 p = run sampleP 20 (colouring 3 4) ∧ run sampleP 20 (colouring 3 4) = ⟨none, [disp sampleP (.int 36)]⟩ :=
  C116_colouring_partial sampleP rfl rfl 3 4 (by omega) 20 (by decide) true 10 30 (by decide)

/-! ## Where the count changes -/

/-- The program with another search, another first row and another size. -/
def searching (solve entry : List Stmt) (n : Int) : List Stmt :=
  [.funDef 100 [(0, false), (1, false), (2, false), (3, false), (4, false)] solve, .funDef 101 [(4, false)] entry,
   .showS (.call 101 [intLit n])]

/-- What is printed before and after the pass. -/
def printed (p : List Stmt) : List Text × Option (List Text) :=
  ((run sampleP 80 p).output, (breakSymmetry true true 10 11 p).map fun q => (run sampleP 80 q).output)

/-- A search whose free columns are `cols & 1`: only boards that begin in column 0 are counted. -/
def lopsided : List Stmt :=
  [.ifS (.bin .eq (.var 0) (.var 4)) [.ret (some (intLit 1))] [],
   .letS 6 false true (.bin .bitAnd (.var 1) (intLit 1)),
   .letS 7 false true (intLit 0),
   .whileS (.bin .ne (.var 6) (intLit 0)) (bitBody 6 8 7 solveCall),
   .ret (some (.var 7))]

/-- C116 fails: only the arguments of the recursive call are looked at, not the set of free columns, so a search without the symmetry
is halved and its count doubled. -/
theorem C116_available_fails :
    printed (searching lopsided entryBody 2) = ([sampleP.display (.int 1)], some [sampleP.display (.int 2)]) := by
  decide +kernel

/-- The first row, starting one diagonal empty. -/
def halfStarted : List Stmt :=
  [.letS 5 false false (.bin .sub (.bin .shl (intLit 1) (.var 4)) (intLit 1)),
   .letS 6 false true (.var 5),
   .letS 7 false true (intLit 0),
   .whileS (.bin .ne (.var 6) (intLit 0)) (bitBody 6 8 7
     (.call 100 [intLit 1, .var 8, intLit 0, .bin .shr (.var 8) (intLit 1), .var 4])),
   .ret (some (.var 7))]

/-- C116 fails: of the arguments of the first call only the row and the size are looked at. -/
theorem C116_arguments_fails :
    printed (searching solveBody halfStarted 2) = ([sampleP.display (.int 1)], some [sampleP.display (.int 2)]) := by
  decide +kernel

/-- The first row as a counted loop that leaves out column 1. -/
def guarded : List Stmt :=
  [.letS 6 false true (intLit 0),
   .letS 7 false true (intLit 0),
   .whileS (.bin .lt (.var 6) (.var 4))
     [.letS 8 false false (.bin .shl (intLit 1) (.var 6)),
      .ifS (.bin .ne (.var 8) (intLit 2)) [.set 7 (.bin .add (.var 7) (entryCall 8))] [],
      .set 6 (.bin .add (.var 6) (intLit 1))],
   .ret (some (.var 7))]

/-- C116 fails: the guard of a counted loop is not looked at; of the two solutions for four queens one begins in column 1. -/
theorem C116_guard_fails :
    printed (searching solveBody guarded 4) = ([sampleP.display (.int 1)], some [sampleP.display (.int 0)]) := by
  decide +kernel

/-- C116 fails: a function without parameters that calls itself in such a loop makes the compiler panic. -/
theorem C116_panic_fails : breakSymmetry true true 10 11
    [.letS 0 false true (intLit 0), .letS 1 false true (intLit 1),
     .funDef 100 [] [.ifS (.bin .eq (.var 0) (.var 1)) [.ret (some (intLit 1))] [],
       .letS 6 false true (intLit 1), .letS 7 false true (intLit 0),
       .whileS (.bin .ne (.var 6) (intLit 0)) (bitBody 6 8 7 (.call 100 [])),
       .ret (some (.var 7))]] = none := by
  decide +kernel

/-- C116 fails: with a negative number of colours the loop does nothing, but the product is negative: the project's own program
prints 0 before the pass and -1 after it. -/
theorem C116_negative_fails :
    printed (colouring 1 (-1)) = ([sampleP.display (.int 0)], some [sampleP.display (.int (-1))]) := by
  decide +kernel

/-- The colouring whose inner loop begins at the second colour. -/
def fromTwo : List Stmt :=
  [.funDef 200 [(20, false), (21, false), (22, false), (23, false)]
     [.ifS (.bin .gt (.var 20) (.var 22)) [.ret (some (intLit 1))] [],
      .letS 24 false true (intLit 0),
      .letS 25 false true (intLit 2),
      .whileS (.bin .le (.var 25) (.var 23)) colourLoop,
      .ret (some (.var 24))],
   .funDef 201 [(22, false), (23, false)] countBody,
   .showS (.call 201 [intLit 2, intLit 2])]

/-- C116 fails: where the inner loop begins and ends is not looked at, so values that cannot be exchanged are. -/
theorem C116_range_fails : printed fromTwo = ([sampleP.display (.int 1)], some [sampleP.display (.int 2)]) := by
  decide +kernel

end Verif.Props
