import Verif.Lang.SymmetryRun
/-!
# Running counted searches over values

Lemmas for C116: the interpreter on a search over values `1..k` with a guard, and on the loop that starts it.
-/
namespace Verif.Lang.Symm
open Finset

variable {P : Prims} {inv : Target → List Value → State → Res Value} {s : State}

theorem op_le (P : Prims) (a b : Int) : applyOp P .le (.int a) (.int b) = .ok (.bool (decide (a ≤ b))) := by
  have h : compare a b ≠ .gt ↔ a ≤ b := by rw [ne_eq, compare_gt_iff_gt]; omega
  simp only [applyOp, cmpVals, relOf]
  congr 2
  rw [Bool.eq_iff_iff]
  simp [← h]

theorem op_gt (P : Prims) (a b : Int) : applyOp P .gt (.int a) (.int b) = .ok (.bool (decide (b < a))) := by
  have h : compare a b = .gt ↔ b < a := by rw [compare_gt_iff_gt]
  simp only [applyOp, cmpVals, relOf]
  congr 2
  rw [Bool.eq_iff_iff]
  simp [← h]

/-- A counted loop adds up what its body adds. -/
theorem count_loop (hf : s.env.frames ≠ []) (c acc k : Sym) (hca : c ≠ acc) (hck : k ≠ c) (hak : k ≠ acc) (body : List Stmt) (g : Int → Int)
    (base : VMap) (K : Int) (hk : base k = some (.int K)) (n : Nat)
    (hbody : ∀ L i a, 1 ≤ i → i ≤ K → (∀ y, y ≠ c → y ≠ acc → L y = base y) → L c = some (.int i) → L acc = some (.int a) →
      ∃ L', inScope (execs (over P inv) n body) (withLocals s L []) = (.ok .cont, withLocals s L' []) ∧
        (∀ y, y ≠ c → y ≠ acc → L' y = base y) ∧ L' c = some (.int (i + 1)) ∧ L' acc = some (.int (a + g i))) :
    ∀ (d m : Nat) (i a : Int) (L : VMap), (K + 1 - i).toNat = d → 1 ≤ i → d < m → (∀ y, y ≠ c → y ≠ acc → L y = base y) →
      L c = some (.int i) → L acc = some (.int a) →
      ∃ L', whileLoop P (evalE (over P inv) (.bin .le (.var c) (.var k))) (inScope (execs (over P inv) n body)) m (withLocals s L []) =
          (.ok .cont, withLocals s L' []) ∧ (∀ y, y ≠ c → y ≠ acc → L' y = base y) ∧
        L' acc = some (.int (a + ∑ j ∈ range d, g (i + j))) := by
  intro d
  induction d with
  | zero =>
    intro m i a L hd hi hm hL hc ha
    obtain ⟨m, rfl⟩ := Nat.exists_eq_succ_of_ne_zero (show m ≠ 0 by omega)
    have hcond := ev_bin (P := P) (inv := inv) (op := .le) (by decide) (ev_var hf (sv := []) hc)
      (ev_var hf (x := k) (v := .int K) (by rw [hL k hck hak, hk])) (v := .bool false)
      (by
        have : ¬ i ≤ K := by omega
        rw [op_le]; simp [this])
    refine ⟨L, ?_, hL, by simp [ha]⟩
    simp [whileLoop, whileStep, hcond, Res.bind, truthy]
  | succ d ih =>
    intro m i a L hd hi hm hL hc ha
    obtain ⟨m, rfl⟩ := Nat.exists_eq_succ_of_ne_zero (show m ≠ 0 by omega)
    have hcond := ev_bin (P := P) (inv := inv) (op := .le) (by decide) (ev_var hf (sv := []) hc)
      (ev_var hf (x := k) (v := .int K) (by rw [hL k hck hak, hk])) (v := .bool true)
      (by
        have : i ≤ K := by omega
        rw [op_le]; simp [this])
    obtain ⟨L1, hs, hL1, hc1, ha1⟩ := hbody L i a hi (by omega) hL hc ha
    obtain ⟨L', hw, hL', ha'⟩ := ih m (i + 1) (a + g i) L1 (by omega) (by omega) (by omega) hL1 hc1 ha1
    refine ⟨L', ?_, hL', ?_⟩
    · rw [whileLoop, whileStep, hcond]
      simp only [Res.bind, truthy, if_true, hs, loopNext, hw]
    · rw [ha', Finset.sum_range_succ']
      simp only [Nat.cast_add, Nat.cast_one, Nat.cast_zero, add_zero]
      congr 2
      rw [add_assoc, add_comm (g i)]
      congr 2
      apply Finset.sum_congr rfl
      intro j _
      congr 1
      omega

/-! ## The colouring of a path -/

/-- The loop of the search. -/
def colourLoop : List Stmt :=
  [.ifS (.bin .ne (.var 25) (.var 21))
     [.set 24 (.bin .add (.var 24) (.call 200 [.bin .add (.var 20) (intLit 1), .var 25, .var 22, .var 23]))] [],
   .set 25 (.bin .add (.var 25) (intLit 1))]

/-- `color (node, prev, n, k)` (`crates/logicaffeine_tests/tests/phase_symmetry_valuesym.rs` 71-80). -/
def colourBody : List Stmt :=
  [.ifS (.bin .gt (.var 20) (.var 22)) [.ret (some (intLit 1))] [],
   .letS 24 false true (intLit 0),
   .letS 25 false true (intLit 1),
   .whileS (.bin .le (.var 25) (.var 23)) colourLoop,
   .ret (some (.var 24))]

/-- The function. -/
def colourFun : Fun := ⟨[20, 21, 22, 23], colourBody⟩

/-- `countAll (n, k)` (`phase_symmetry_valuesym.rs` 82-88). -/
def countBody : List Stmt :=
  [.letS 26 false true (intLit 0),
   .letS 25 false true (intLit 1),
   .whileS (.bin .le (.var 25) (.var 23))
     [.set 26 (.bin .add (.var 26) (.call 200 [intLit 2, .var 25, .var 22, .var 23])),
      .set 25 (.bin .add (.var 25) (intLit 1))],
   .ret (some (.var 26))]

/-- What it should become. -/
def onceBody (vsym : Sym) : List Stmt :=
  [.letS 26 false true (intLit 0),
   .letS 25 false true (intLit 1),
   .letS vsym false false (.var 23),
   .set 26 (.bin .mul (.var vsym) (.call 200 [intLit 2, intLit 1, .var 22, .var 23])),
   .ret (some (.var 26))]

/-- The ways to colour `r` more nodes after one coloured `p`. -/
def ways (K : Int) : Nat → Int → Int
  | 0, _ => 1
  | r + 1, p => ∑ j ∈ range K.toNat, if 1 + (j : Int) = p then 0 else ways K r (1 + j)

/-- The colour of the node before does not matter. -/
theorem ways_eq {K : Int} : ∀ (r : Nat) (p : Int), 1 ≤ p → p ≤ K → ways K r p = (K - 1) ^ r := by
  intro r
  induction r with
  | zero => intros; simp [ways]
  | succ r ih =>
    intro p h1 h2
    have hsum : ways K (r + 1) p = ∑ j ∈ range K.toNat, if j = (p - 1).toNat then 0 else (K - 1) ^ r := by
      rw [ways]
      apply Finset.sum_congr rfl
      intro j hj
      rw [Finset.mem_range] at hj
      by_cases e : 1 + (j : Int) = p
      · rw [if_pos e, if_pos (by omega)]
      · rw [if_neg e, if_neg (by omega), ih _ (by omega) (by omega)]
    have hsplit : ∀ j, (if j = (p - 1).toNat then 0 else (K - 1) ^ r) = (K - 1) ^ r - if j = (p - 1).toNat then (K - 1) ^ r else 0 := by
      intro j
      split <;> simp
    rw [hsum]
    simp only [hsplit]
    rw [Finset.sum_sub_distrib, Finset.sum_const, Finset.card_range, Finset.sum_ite_eq' (range K.toNat),
      if_pos (by rw [Finset.mem_range]; omega), nsmul_eq_mul]
    have : ((K.toNat : Nat) : Int) = K := by omega
    rw [this]
    ring

/-- The search counts the ways. -/
theorem colour_run (P : Prims) (hb : P.builtin 200 = none) (N K : Int) :
    ∀ (r m : Nat) (node prev : Int) (s : State), s.funs 200 = some colourFun → (N + 1 - node).toNat = r → r + K.toNat + 2 ≤ m →
      invokeN P (applyOp P) (fun _ _ => true) m (.fn colourFun) [.int node, .int prev, .int N, .int K] s = (.ok (.int (ways K r prev)), s) := by
  intro r
  induction r with
  | zero =>
    intro m node prev s hs hr hm
    obtain ⟨m, rfl⟩ := Nat.exists_eq_succ_of_ne_zero (show m ≠ 0 by omega)
    have hf := inside_frames s
    show invokeFun (over P (invokeN P (applyOp P) (fun _ _ => true) m)) m colourFun _ s = _
    apply call_returns (L' := bound colourFun.params [.int node, .int prev, .int N, .int K] (fun _ => none))
    show execs _ m colourBody _ = _
    unfold colourBody
    apply exs_ret
    have h1 := in_scope hf (f := execs (over P (invokeN P (applyOp P) (fun _ _ => true) m)) m [.ret (some (intLit 1))])
      (L := bound colourFun.params [.int node, .int prev, .int N, .int K] (fun _ => none)) (sv := []) (sc := []) (exs_ret (ex_ret (ev_int (k := 1))))
    have hc := ev_bin (P := P) (inv := invokeN P (applyOp P) (fun _ _ => true) m) (op := .gt) (by decide)
      (ev_var hf (L := bound colourFun.params [.int node, .int prev, .int N, .int K] (fun _ => none)) (sv := []) (x := 20) (v := .int node)
        (by simp [bound, colourFun, VMap.put]))
      (ev_var hf (x := 22) (v := .int N) (by simp [bound, colourFun, VMap.put]))
      (v := .bool true) (by rw [op_gt]; simp; omega)
    simp only [exec, hc, Res.bind]
    simpa [truthy, undo, ways] using h1
  | succ r ih =>
    intro m node prev s hs hr hm
    obtain ⟨m, rfl⟩ := Nat.exists_eq_succ_of_ne_zero (show m ≠ 0 by omega)
    have hf := inside_frames s
    show invokeFun (over P (invokeN P (applyOp P) (fun _ _ => true) m)) m colourFun _ s = _
    generalize hinv : invokeN P (applyOp P) (fun _ _ => true) m = inv at *
    generalize hL0 : bound colourFun.params [.int node, .int prev, .int N, .int K] (fun _ => none) = L0
    have hv : L0 20 = some (.int node) ∧ L0 21 = some (.int prev) ∧ L0 22 = some (.int N) ∧ L0 23 = some (.int K) := by
      subst hL0
      simp [bound, colourFun, VMap.put]
    obtain ⟨v0, v1, v2, v3⟩ := hv
    have e0 := ex_if_false (P := P) (inv := inv) hf (t := [.ret (some (intLit 1))]) (n := m) (sv := [])
      (ev_bin (op := .gt) (by decide) (ev_var hf v0) (ev_var hf v2) (v := .bool false) (by rw [op_gt]; simp; omega))
    have e1 := ex_let (P := P) (inv := inv) hf (L := L0) (sv := []) (x := 24) (t := false) (m := true) (n := m) (ev_int (k := 0))
    have e2 := ex_let (P := P) (inv := inv) hf (L := L0.put 24 (some (.int 0))) (sv := []) (x := 25) (t := false) (m := true) (n := m) (ev_int (k := 1))
    generalize hL2 : ((L0.put 24 (some (.int 0))).put 25 (some (.int 1))) = L2 at *
    have q : L2 20 = some (.int node) ∧ L2 21 = some (.int prev) ∧ L2 22 = some (.int N) ∧ L2 23 = some (.int K) ∧ L2 24 = some (.int 0) ∧
        L2 25 = some (.int 1) := by
      subst hL2
      simp [VMap.put, v0, v1, v2, v3]
    obtain ⟨q0, q1, q2, q3, q4, q5⟩ := q
    have hfun : ∀ L sv, (withLocals (inside s) L sv).funs 200 = some colourFun := fun L sv => hs
    obtain ⟨L', hw, -, hacc⟩ := count_loop (P := P) (inv := inv) hf 25 24 23 (by decide) (by decide) (by decide) colourLoop
      (fun i => if i = prev then 0 else ways K r i) L2 K q3 m
      (by
        intro L i a hi hiK hL hc ha
        have g0 : L 20 = some (.int node) := by rw [hL 20 (by decide) (by decide), q0]
        have g1 : L 21 = some (.int prev) := by rw [hL 21 (by decide) (by decide), q1]
        have g2 : L 22 = some (.int N) := by rw [hL 22 (by decide) (by decide), q2]
        have g3 : L 23 = some (.int K) := by rw [hL 23 (by decide) (by decide), q3]
        have hcond := ev_bin (P := P) (inv := inv) (op := .ne) (by decide) (ev_var hf (sv := [[]]) hc) (ev_var hf g1)
          (v := .bool (decide (i ≠ prev))) (by
            by_cases e : i = prev <;> simp [applyOp, valEq, e])
        have step : ∃ L1, exec (over P inv) m (.ifS (.bin .ne (.var 25) (.var 21))
            [.set 24 (.bin .add (.var 24) (.call 200 [.bin .add (.var 20) (intLit 1), .var 25, .var 22, .var 23]))] [])
            (withLocals (inside s) L [[]]) = (.ok .cont, withLocals (inside s) L1 [[]]) ∧ (∀ y, y ≠ 24 → L1 y = L y) ∧
            L1 24 = some (.int (a + if i = prev then 0 else ways K r i)) := by
          by_cases e : i = prev
          · refine ⟨L, ?_, fun _ _ => rfl, by simp [ha, e]⟩
            apply ex_if_false hf
            rw [hcond]
            simp [e]
          · have hcall : evalE (over P inv) (.call 200 [.bin .add (.var 20) (intLit 1), .var 25, .var 22, .var 23])
                (withLocals (inside s) L [[], []]) = (.ok (.int (ways K r i)), withLocals (inside s) L [[], []]) := by
              refine ev_call hb (hfun L _) rfl
                (evs_cons (ev_bin (op := .add) (by decide) (ev_var hf g0) (ev_int (k := 1)) (v := .int (node + 1)) (by simp [applyOp, addVals]))
                  (evs_cons (ev_var hf hc) (evs_cons (ev_var hf g2) (evs_cons (ev_var hf g3) evs_nil)))) ?_
              rw [← hinv]
              exact ih m (node + 1) i _ (hfun L _) (by omega) (by omega)
            have f1 := ex_set (P := P) (inv := inv) hf (L := L) (sv := [[], []]) (x := 24) (n := m) (by simp [ha])
              (ev_bin (op := .add) (by decide) (ev_var hf ha) hcall (v := .int (a + ways K r i)) (by simp [applyOp, addVals]))
            have fb : execs (over P inv) m [.set 24 (.bin .add (.var 24) (.call 200 [.bin .add (.var 20) (intLit 1), .var 25, .var 22, .var 23]))]
                (withLocals (inside s) L [[], []]) = (.ok .cont, withLocals (inside s) (L.put 24 (some (.int (a + ways K r i)))) [[], []]) := by
              rw [exs_cons f1]
              simp only [execs]
            have fs := in_scope hf fb
            refine ⟨L.put 24 (some (.int (a + ways K r i))), ?_, fun y hy => put_other _ _ hy, by simp [put_self, e]⟩
            simp only [exec, hcond, Res.bind]
            simp only [ne_eq, e, not_false_eq_true, decide_true, truthy, if_true]
            exact fs
        obtain ⟨L1, h1, ho, h24⟩ := step
        have h25 : L1 25 = some (.int i) := by rw [ho 25 (by decide), hc]
        have e2 := ex_set (P := P) (inv := inv) hf (L := L1) (sv := [[]]) (x := 25) (n := m) (by simp [h25])
          (ev_bin (op := .add) (by decide) (ev_var hf h25) (ev_int (k := 1)) (v := .int (i + 1)) (by simp [applyOp, addVals]))
        have eb : execs (over P inv) m colourLoop (withLocals (inside s) L [[]]) =
            (.ok .cont, withLocals (inside s) (L1.put 25 (some (.int (i + 1)))) [[]]) := by
          unfold colourLoop
          rw [exs_cons h1, exs_cons e2]
          simp only [execs]
        refine ⟨L1.put 25 (some (.int (i + 1))), by simpa [undo] using in_scope hf eb, ?_, by simp [put_self], by simp [VMap.put, h24]⟩
        intro y hy1 hy2
        rw [put_other _ _ hy1, ho y hy2, hL y hy1 hy2])
      (K + 1 - 1).toNat m 1 0 L2 rfl (by omega) (by omega) (fun _ _ _ => rfl) q5 q4
    apply call_returns (L' := L')
    rw [hL0]
    show execs _ m colourBody _ = _
    unfold colourBody
    rw [exs_cons e0, exs_cons e1]
    simp only [recordSave]
    rw [exs_cons e2]
    simp only [recordSave]
    rw [exs_cons (ex_while hw)]
    refine exs_ret (ex_ret (ev_var hf ?_))
    rw [hacc, zero_add, ways, show (K + 1 - 1).toNat = K.toNat by omega]

/-- The loop that starts the search. -/
theorem count_run (hb : P.builtin 200 = none) {s : State} {fd : Fun} (hfun : s.funs 200 = some fd) (hp : fd.params.length = 4)
    {N K v : Int} {fuel : Nat} (hK : 0 ≤ K) (hfuel : K.toNat < fuel)
    (hinv : ∀ c, 1 ≤ c → c ≤ K → ∀ st : State, st.funs = s.funs → inv (.fn fd) [.int 2, .int c, .int N, .int K] st = (.ok (.int v), st)) :
    invokeFun (over P inv) fuel ⟨[22, 23], countBody⟩ [.int N, .int K] s = (.ok (.int (K * v)), s) := by
  have hf := inside_frames s
  generalize hL0 : bound [22, 23] [.int N, .int K] (fun _ => none) = L0
  have hv : L0 22 = some (.int N) ∧ L0 23 = some (.int K) := by
    subst hL0
    simp [bound, VMap.put]
  have e1 := ex_let (P := P) (inv := inv) hf (L := L0) (sv := []) (x := 26) (t := false) (m := true) (n := fuel) (ev_int (k := 0))
  have e2 := ex_let (P := P) (inv := inv) hf (L := L0.put 26 (some (.int 0))) (sv := []) (x := 25) (t := false) (m := true) (n := fuel) (ev_int (k := 1))
  generalize hL2 : ((L0.put 26 (some (.int 0))).put 25 (some (.int 1))) = L2 at *
  have q : L2 22 = some (.int N) ∧ L2 23 = some (.int K) ∧ L2 26 = some (.int 0) ∧ L2 25 = some (.int 1) := by
    subst hL2
    simp [VMap.put, hv]
  obtain ⟨q2, q3, q6, q5⟩ := q
  obtain ⟨L', hw, -, hacc⟩ := count_loop (P := P) (inv := inv) hf 25 26 23 (by decide) (by decide) (by decide)
    [.set 26 (.bin .add (.var 26) (.call 200 [intLit 2, .var 25, .var 22, .var 23])), .set 25 (.bin .add (.var 25) (intLit 1))]
    (fun _ => v) L2 K q3 fuel
    (by
      intro L i a hi hiK hL hc ha
      have g2 : L 22 = some (.int N) := by rw [hL 22 (by decide) (by decide), q2]
      have g3 : L 23 = some (.int K) := by rw [hL 23 (by decide) (by decide), q3]
      have hcall : evalE (over P inv) (.call 200 [intLit 2, .var 25, .var 22, .var 23]) (withLocals (inside s) L [[]]) =
          (.ok (.int v), withLocals (inside s) L [[]]) :=
        ev_call hb (show (withLocals (inside s) L [[]]).funs 200 = some fd from hfun) (by simp [hp])
          (evs_cons (ev_int (k := 2)) (evs_cons (ev_var hf hc) (evs_cons (ev_var hf g2) (evs_cons (ev_var hf g3) evs_nil)))) (hinv i hi hiK _ rfl)
      have f1 := ex_set (P := P) (inv := inv) hf (L := L) (sv := [[]]) (x := 26) (n := fuel) (by simp [ha])
        (ev_bin (op := .add) (by decide) (ev_var hf ha) hcall (v := .int (a + v)) (by simp [applyOp, addVals]))
      have h25 : (L.put 26 (some (.int (a + v)))) 25 = some (.int i) := by simp [VMap.put, hc]
      have f2 := ex_set (P := P) (inv := inv) hf (L := L.put 26 (some (.int (a + v)))) (sv := [[]]) (x := 25) (n := fuel) (by simp [h25])
        (ev_bin (op := .add) (by decide) (ev_var hf h25) (ev_int (k := 1)) (v := .int (i + 1)) (by simp [applyOp, addVals]))
      have eb : execs (over P inv) fuel [.set 26 (.bin .add (.var 26) (.call 200 [intLit 2, .var 25, .var 22, .var 23])), .set 25 (.bin .add (.var 25) (intLit 1))]
          (withLocals (inside s) L [[]]) = (.ok .cont, withLocals (inside s) ((L.put 26 (some (.int (a + v)))).put 25 (some (.int (i + 1)))) [[]]) := by
        rw [exs_cons f1, exs_cons f2]
        simp only [execs]
      refine ⟨_, by simpa [undo] using in_scope hf eb, ?_, by simp [put_self], by simp [VMap.put]⟩
      intro y hy1 hy2
      rw [put_other _ _ hy1, put_other _ _ hy2, hL y hy1 hy2])
    (K + 1 - 1).toNat fuel 1 0 L2 rfl (by omega) (by omega) (fun _ _ _ => rfl) q5 q6
  apply call_returns (L' := L')
  show execs _ fuel countBody (withLocals (inside s) (bound [22, 23] [.int N, .int K] (fun _ => none)) []) = _
  rw [hL0]
  unfold countBody
  rw [exs_cons e1]
  simp only [recordSave]
  rw [exs_cons e2]
  simp only [recordSave]
  rw [exs_cons (ex_while hw)]
  refine exs_ret (ex_ret (ev_var hf ?_))
  rw [hacc, zero_add, Finset.sum_const, Finset.card_range, nsmul_eq_mul]
  have : (((K + 1 - 1).toNat : Nat) : Int) = K := by omega
  rw [this]

/-- The search once. -/
theorem once_run (hb : P.builtin 200 = none) {s : State} {fd : Fun} (hfun : s.funs 200 = some fd) (hp : fd.params.length = 4)
    {N K v : Int} {fuel : Nat} {vsym : Sym} (hv : 26 < vsym)
    (hinv : ∀ st : State, st.funs = s.funs → inv (.fn fd) [.int 2, .int 1, .int N, .int K] st = (.ok (.int v), st)) :
    invokeFun (over P inv) fuel ⟨[22, 23], onceBody vsym⟩ [.int N, .int K] s = (.ok (.int (K * v)), s) := by
  have hf := inside_frames s
  have h22 : (22 : Sym) ≠ vsym := by rintro rfl; exact absurd hv (by decide)
  have h23 : (23 : Sym) ≠ vsym := by rintro rfl; exact absurd hv (by decide)
  have h26 : (26 : Sym) ≠ vsym := by rintro rfl; exact absurd hv (by decide)
  generalize hL0 : bound [22, 23] [.int N, .int K] (fun _ => none) = L0
  have hv : L0 22 = some (.int N) ∧ L0 23 = some (.int K) := by
    subst hL0
    simp [bound, VMap.put]
  have e1 := ex_let (P := P) (inv := inv) hf (L := L0) (sv := []) (x := 26) (t := false) (m := true) (n := fuel) (ev_int (k := 0))
  have e2 := ex_let (P := P) (inv := inv) hf (L := L0.put 26 (some (.int 0))) (sv := []) (x := 25) (t := false) (m := true) (n := fuel) (ev_int (k := 1))
  generalize hL2 : ((L0.put 26 (some (.int 0))).put 25 (some (.int 1))) = L2 at *
  have q : L2 22 = some (.int N) ∧ L2 23 = some (.int K) ∧ L2 26 = some (.int 0) := by
    subst hL2
    simp [VMap.put, hv]
  obtain ⟨q2, q3, q6⟩ := q
  have e3 := ex_let (P := P) (inv := inv) hf (L := L2) (sv := []) (x := vsym) (t := false) (m := false) (n := fuel) (ev_var hf q3)
  have p2 : (L2.put vsym (some (.int K))) 22 = some (.int N) := by rw [put_other _ _ h22, q2]
  have p3 : (L2.put vsym (some (.int K))) 23 = some (.int K) := by rw [put_other _ _ h23, q3]
  have p6 : (L2.put vsym (some (.int K))) 26 = some (.int 0) := by rw [put_other _ _ h26, q6]
  generalize hL3 : L2.put vsym (some (.int K)) = L3 at *
  have pv : L3 vsym = some (.int K) := by rw [← hL3, put_self]
  have hcall : evalE (over P inv) (.call 200 [intLit 2, intLit 1, .var 22, .var 23]) (withLocals (inside s) L3 []) =
      (.ok (.int v), withLocals (inside s) L3 []) :=
    ev_call hb (show (withLocals (inside s) L3 []).funs 200 = some fd from hfun) (by simp [hp])
      (evs_cons (ev_int (k := 2)) (evs_cons (ev_int (k := 1)) (evs_cons (ev_var hf p2) (evs_cons (ev_var hf p3) evs_nil)))) (hinv _ rfl)
  have e4 := ex_set (P := P) (inv := inv) hf (L := L3) (sv := []) (x := 26) (n := fuel) (by simp [p6])
    (ev_bin (op := .mul) (by decide) (ev_var hf pv) hcall (v := .int (K * v)) (by simp [applyOp, mulVals]))
  apply call_returns (L' := L3.put 26 (some (.int (K * v))))
  show execs _ fuel (onceBody vsym) (withLocals (inside s) (bound [22, 23] [.int N, .int K] (fun _ => none)) []) = _
  rw [hL0]
  unfold onceBody
  rw [exs_cons e1]
  simp only [recordSave]
  rw [exs_cons e2]
  simp only [recordSave]
  rw [exs_cons e3]
  simp only [recordSave]
  rw [exs_cons e4]
  exact exs_ret (ex_ret (ev_var hf (put_self _ _ _)))

end Verif.Lang.Symm
