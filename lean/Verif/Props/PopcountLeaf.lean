import Verif.Lang.PopcountRun
import Verif.Props.Fold
/-!
# C118: counting the last level of a search at once

A search over the bits of a set that counts its last level by counting the bits returns what it returned before.
-/
namespace Verif.Props
open Verif.Lang Verif.Lang.Symm Verif.Lang.Pop

/-- The number of ones among the 64 bits of a word. -/
def ones (X : BitVec 64) : Nat := (List.range 64).countP X.getLsbD

/-- `count_ones`, called by the name `c`, counts the ones of every word. -/
def CountsOnes (P : Prims) (c : Sym) : Prop := ∃ g, P.builtin c = some g ∧ ∀ X : BitVec 64, g [.int X.toInt] = .ok (.int (ones X))

private theorem ones_eq (X : BitVec 64) : ones X = (places X).length := List.countP_eq_length_filter ..

/-- If the level is at the limit return the constant. -/
def atLimit (k lim : Sym) (cnst : Int) : Stmt := .ifS (.bin .eq (.var k) (.var lim)) [.ret (some (.lit (.num cnst)))] []

/-- If the level is the last, return the constant times the ones of `x`. -/
def atLast (c k lim x : Sym) (cnst : Int) : Stmt :=
  .ifS (.bin .eq (.var k) (.bin .sub (.var lim) (.lit (.num 1))))
    [.ret (some (if cnst = 1 then .call c [.var x] else .bin .mul (.lit (.num cnst)) (.call c [.var x])))] []

/-- C118: a function that is changed begins with a return of a constant at its limit, has a loop over the bits of `x` behind a
definition of `x`, and gets one more statement, behind that definition; nothing else is changed, and a call whose level is not the
last when it gets there, or which returns before, returns what it returned. -/
theorem C118_above (P : Prims) (f c : Sym) (body new : List Stmt) (h : rewriteBody f c body = some new) :
    ∃ (k lim x acc : Sym) (cnst : Int) (pre mid b tail : List Stmt) (t m : Bool) (e : Expr),
      body = (pre ++ [.letS x t m e]) ++ (mid ++ .whileS (.bin .ne (.var x) (.lit (.num 0))) b :: tail) ∧
      new = (pre ++ [.letS x t m e]) ++ atLast c k lim x cnst :: (mid ++ .whileS (.bin .ne (.var x) (.lit (.num 0))) b :: tail) ∧
      body.head? = some (atLimit k lim cnst) ∧ body.getLast? = some (.ret (some (.var acc))) ∧
      (∃ t' m', .letS acc t' m' (.lit (.num 0)) ∈ pre ++ .letS x t m e :: mid) ∧ (∀ t m e, .letS x t m e ∉ mid) ∧
      (∃ bit t m v w l r args, b = [.letS bit t m v, .set x w, .set acc (.bin .add l r)] ∧ (l = .var acc ∧ r = .call f args ∨ l = .call f args ∧ r = .var acc) ∧
        (.bin .add (.var k) (.lit (.num 1)) ∈ args ∨ .bin .add (.lit (.num 1)) (.var k) ∈ args)) ∧
      ∀ (M : Nat) (ps : List Sym) (vs : List Value) (s : State),
        (∀ t', execs (plain P M) M (pre ++ [.letS x t m e]) (s.withEnv fun e => bindParams ps vs e.pushFrame) = (.ok .cont, t') →
          t'.env.frames ≠ [] ∧ ∃ a b, t'.env.lookup k = some (.int a) ∧ t'.env.lookup lim = some (.int b) ∧ a + 1 ≠ b) →
        (plain P (M + 1)).invoke (.fn ⟨ps, new⟩) vs s = (plain P (M + 1)).invoke (.fn ⟨ps, body⟩) vs s := by
  unfold rewriteBody at h
  split_ifs at h with h1 h2
  split at h
  · cases h
  rename_i _ base rest
  split at h
  · cases h
  rename_i k lim cnst hbase
  split at h
  · cases h
  rename_i i x acc hfind
  split_ifs at h with h3 h4
  obtain ⟨A, B, cond, b, hl, hi, hx, hb⟩ := find_spec hfind
  obtain ⟨bit, tb, mb, v, w, args, u, rfl, -, -, hargs, hu⟩ := body_spec hb
  have hstep : .bin .add (.var k) (.lit (.num 1)) ∈ args ∨ .bin .add (.lit (.num 1)) (.var k) ∈ args := by
    simp only [List.any_eq_true] at hargs
    obtain ⟨a, ha, hk⟩ := hargs
    unfold isKPlusOne at hk
    split at hk
    swap
    · cases hk
    simp only [Bool.or_eq_true, Bool.and_eq_true, beq_iff_eq] at hk
    rcases hk with ⟨h1, h2⟩ | ⟨h1, h2⟩
    · rw [ident_eq h1, int_eq h2] at ha
      exact Or.inl ha
    · rw [int_eq h1, ident_eq h2] at ha
      exact Or.inr ha
  rw [loopX_eq hx] at hl
  simp only [Nat.zero_add] at hi
  subst hi
  have ht : (base :: rest).take A.length = A ∧ (base :: rest).drop A.length = .whileS (.bin .ne (.var x) (.lit (.num 0))) [.letS bit tb mb v, .set x w, .set acc u] :: B := by
    rw [hl]
    simp
  rw [ht.1, ht.2] at h
  rw [ht.1] at h3
  obtain ⟨r, hr, rfl⟩ := Option.map_eq_some_iff.1 h
  obtain ⟨pre, mid, t, m, e, rfl, rfl, hmid⟩ := splice_spec hr
  have e1 : base :: rest = (pre ++ [.letS x t m e]) ++ (mid ++ .whileS (.bin .ne (.var x) (.lit (.num 0))) [.letS bit tb mb v, .set x w, .set acc u] :: B) := by
    rw [hl]
    simp
  have e2 : (pre ++ .letS x t m e :: fastPath k lim cnst x c :: mid) ++ .whileS (.bin .ne (.var x) (.lit (.num 0))) [.letS bit tb mb v, .set x w, .set acc u] :: B =
      (pre ++ [.letS x t m e]) ++ atLast c k lim x cnst :: (mid ++ .whileS (.bin .ne (.var x) (.lit (.num 0))) [.letS bit tb mb v, .set x w, .set acc u] :: B) := by
    simp [atLast, fastPath]
  refine ⟨k, lim, x, acc, cnst, pre, mid, _, B, t, m, e, e1, e2, by rw [base_eq hbase]; rfl, ?_, ?_, fun t m e hmem => hmid _ hmem t m e rfl, ?_, ?_⟩
  · cases hg : (base :: rest).getLast? with
    | none => simp at hg
    | some st =>
      rw [hg] at h4
      simp only [Option.any_some, Bool.not_eq_false] at h4
      unfold returnsAcc at h4
      split at h4
      · simp only [beq_iff_eq] at h4
        rw [ident_eq h4]
      · cases h4
  · simp only [Bool.not_eq_false, List.any_eq_true] at h3
    obtain ⟨st, hst, hz⟩ := h3
    unfold startsAtZero at hz
    split at hz
    · rename_i y t' m' e'
      simp only [Bool.and_eq_true, beq_iff_eq] at hz
      obtain ⟨rfl, hz⟩ := hz
      rw [int_eq hz] at hst
      exact ⟨t', m', hst⟩
    · cases hz
  · rcases hu with rfl | rfl
    · exact ⟨bit, tb, mb, v, w, _, _, args, rfl, Or.inl ⟨rfl, rfl⟩, hstep⟩
    · exact ⟨bit, tb, mb, v, w, _, _, args, rfl, Or.inr ⟨rfl, rfl⟩, hstep⟩
  · intro M ps vs s hs
    rw [e1, e2]
    exact above_run (P := P) hs

/-- C118: the pass changes a function once: what it made is left alone. -/
theorem C118_once (f c : Sym) (body new : List Stmt) (h : rewriteBody f c body = some new) : rewriteBody f c new = none := by
  obtain ⟨k, lim, x, -, cnst, pre, mid, b, tail, t, m, e, -, rfl, -⟩ := C118_above sampleP f c body new h
  have hin : ∀ (A B : List Stmt), onesInBlock c (A ++ atLast c k lim x cnst :: B) = true := by
    intro A B
    induction A with
    | nil =>
      simp only [List.nil_append, onesInBlock, atLast, onesInStmt]
      split_ifs <;> simp [onesIn]
    | cons st A ih => simp [onesInBlock, ih]
  unfold rewriteBody
  split_ifs with h1 h2
  · rfl
  · rfl
  · exact absurd (hin _ _) h2

/-- C118 (partial): a call whose level is the last returns the constant as often as `x` has members, and so does the changed function, if
up to the loop the body only gives values to variables, `x` is no negative number, the arguments of the call in the loop have values,
one more than the level stands in the place of the level, and the limit in its own place. Missing: bodies that print, change `x` or
the accumulator or do something behind the loop, and calls that put the level or the limit elsewhere (see below). -/
theorem C118_leaf_partial (P : Prims) (f c k lim x acc bit : Sym) (hd : [k, lim, x, acc, bit].Nodup) (cnst : Int) (l mid new : List Stmt) (t m tb mb : Bool)
    (e v w u : Expr) (args : List Expr)
    (hnew : rewriteBody f c ((atLimit k lim cnst :: l ++ .letS x t m e :: mid) ++
      [.whileS (.bin .ne (.var x) (.lit (.num 0))) [.letS bit tb mb v, .set x w, .set acc u], .ret (some (.var acc))]) = some new)
    (hu : u = .bin .add (.var acc) (.call f args) ∨ u = .bin .add (.call f args) (.var acc))
    (hl : ∀ c b, .whileS c b ∉ l) (hmid : ∀ c b, .whileS c b ∉ mid) (hx : ∀ t m e, .letS x t m e ∉ mid)
    (M : Nat) (hM : 64 < M) (s : State) (ps : List Sym) (vs : List Value) (L L2 : VMap) (X : BitVec 64) (hX : 0 ≤ X.toInt) (a b : Int) (hab : a + 1 = b)
    (h1 : execs (plain P M) M (atLimit k lim cnst :: l ++ [.letS x t m e]) (s.withEnv fun e => bindParams ps vs e.pushFrame) =
      (.ok .cont, withLocals (inside s) L []))
    (lx : L x = some (.int X.toInt)) (lk : L k = some (.int a)) (ll : L lim = some (.int b))
    (h2 : execs (plain P M) M mid (withLocals (inside s) L []) = (.ok .cont, withLocals (inside s) L2 []))
    (l2 : ∀ y, y ≠ acc → L2 y = L y) (lacc : L2 acc = some (.int 0))
    (hones : CountsOnes P c) (hf0 : P.builtin f = none) (rest : List Stmt)
    (hfun : s.funs f = some ⟨ps, atLimit k lim cnst :: rest⟩) (hps : ps.Nodup) (hlen : args.length = ps.length) (i j : Nat)
    (pk : ps[i]? = some k) (pl : ps[j]? = some lim)
    (ak : args[i]? = some (.bin .add (.var k) (.lit (.num 1))) ∨ args[i]? = some (.bin .add (.lit (.num 1)) (.var k))) (al : args[j]? = some (.var lim))
    (hargs : ∀ e ∈ args, ∀ L' sv, (∀ y, y ≠ x → y ≠ acc → y ≠ bit → L' y = L y) →
      (∃ k, k < 63 ∧ X.getLsbD k = true ∧ L' bit = some (.int (BitVec.twoPow 64 k).toInt)) →
      ∃ v, evalE (plain P M) e (withLocals (inside s) L' sv) = (.ok v, withLocals (inside s) L' sv)) :
    (plain P (M + 1)).invoke (.fn ⟨ps, new⟩) vs s = (.ok (.int (cnst * ones X)), s) ∧
    (plain P (M + 1)).invoke (.fn ⟨ps, (atLimit k lim cnst :: l ++ .letS x t m e :: mid) ++
      [.whileS (.bin .ne (.var x) (.lit (.num 0))) [.letS bit tb mb v, .set x w, .set acc u], .ret (some (.var acc))]⟩) vs s =
        (.ok (.int (cnst * ones X)), s) := by
  obtain ⟨rfl, hb⟩ := rewrite_eq (fun st hst c b h => hl c b (h ▸ hst)) (fun st hst c b h => hmid c b (h ▸ hst)) (fun st hst t m e h => hx t m e (h ▸ hst)) hnew
  obtain ⟨bit', t', m', v', w', args', u', he, hv, hw, -, -⟩ := body_spec hb
  cases he
  obtain ⟨g, hg, hgx⟩ := hones
  have hframe : s.withEnv (fun e => bindParams ps vs e.pushFrame) = withLocals (inside s) (bound ps vs (fun _ => none)) [] := by
    simp only [State.withEnv]
    rw [bind_bound _ _ _ (by simp [Env.pushFrame]) (by simp [Env.pushFrame])]
    rfl
  rw [hframe] at h1
  have := leaf_run (P := P) (s := s) (c := c) (tb := tb) (mb := mb) hM hd (X := X) (by
      rw [BitVec.msb_eq_toInt]; simpa using hX) hv hw hu h1 lx lk ll hab h2 l2 lacc ⟨g, hg, by rw [← ones_eq]; exact hgx X⟩ hf0 hfun hps hlen pk pl
    (by rcases ak with ak | ak <;> rw [ak] <;> simp [isKPlusOne, asIdent, asInt]) al hargs
  rw [ones_eq]
  refine ⟨this.1, ?_⟩
  have h3 := this.2
  simp only [List.append_assoc, List.cons_append, List.nil_append] at h3 ⊢
  exact h3

/-! ## The queens -/

/-- The program of the benchmark, with the number of queens in place of the argument. -/
def allQueens (n : Nat) : List Stmt :=
  [.funDef 100 [(0, false), (1, false), (2, false), (3, false), (4, false)] solveBody,
   .showS (.call 100 [intLit 0, intLit 0, intLit 0, intLit 0, intLit n])]

private theorem run_queens (P : Prims) (hb : P.builtin 100 = none) (n m : Nat) (body : List Stmt) (v : Int)
    (h : ∀ s : State, s.funs 100 = some ⟨[0, 1, 2, 3, 4], body⟩ →
      invokeN P (applyOp P) (fun _ _ => true) m (.fn ⟨[0, 1, 2, 3, 4], body⟩) [.int 0, .int 0, .int 0, .int 0, .int n] s = (.ok (.int v), s)) :
    run P m [.funDef 100 [(0, false), (1, false), (2, false), (3, false), (4, false)] body,
      .showS (.call 100 [intLit 0, intLit 0, intLit 0, intLit 0, intLit n])] = ⟨none, [disp P (.int v)]⟩ := by
  show outcome (execs (over P (invokeN P (applyOp P) (fun _ _ => true) m)) m _ {}) = _
  rw [exs_cons (b := defineFun 100 ⟨[0, 1, 2, 3, 4], body⟩ {}) (by simp [exec])]
  have hc := ev_call (P := P) (inv := invokeN P (applyOp P) (fun _ _ => true) m) (f := 100) (fd := ⟨[0, 1, 2, 3, 4], body⟩)
    (st := defineFun 100 ⟨[0, 1, 2, 3, 4], body⟩ {}) (as := [intLit 0, intLit 0, intLit 0, intLit 0, intLit n]) hb (by simp [defineFun]) rfl
    (evs_cons (ev_int (k := 0)) (evs_cons (ev_int (k := 0)) (evs_cons (ev_int (k := 0)) (evs_cons (ev_int (k := 0)) (evs_cons (ev_int (k := n)) evs_nil)))))
    (h (defineFun 100 ⟨[0, 1, 2, 3, 4], body⟩ {}) (by simp [defineFun]))
  rw [exs_cons (b := { defineFun 100 ⟨[0, 1, 2, 3, 4], body⟩ {} with out := [disp P (.int v)] }) (by
    simp only [exec, hc, Res.bind, doShow]
    rfl)]
  simp [execs, outcome]

/-- C118: the queens, counted by the program of the benchmark, are as many after the pass as before, on every board of up to 62 columns. -/
theorem C118_queens (P : Prims) (hb : P.builtin 100 = none) (ho : CountsOnes P 99) (n m : Nat) (hn : n ≤ 62) (hm : n + 66 ≤ m) :
    popcountLeaf 99 (allQueens n) ≠ allQueens n ∧ run P m (popcountLeaf 99 (allQueens n)) = run P m (allQueens n) ∧
      (run P m (allQueens n)).error = none := by
  have hp : popcountLeaf 99 (allQueens n) = [.funDef 100 [(0, false), (1, false), (2, false), (3, false), (4, false)] leafBody,
      .showS (.call 100 [intLit 0, intLit 0, intLit 0, intLit 0, intLit n])] := by
    simp [popcountLeaf, allQueens, leaf_rewrite]
  obtain ⟨g, hg, hgx⟩ := ho
  have e0 : (V 0#64) = .int 0 := rfl
  have r1 := run_queens P hb n m solveBody _ (fun s hs => solve_run P hb (by omega) n m 0 0#64 0#64 0#64 s hs (by omega) (by omega))
  have r2 := run_queens P hb n m leafBody _ (fun s hs => leaf_solve_run P ⟨g, hg, fun X => by rw [← ones_eq]; exact hgx X⟩ hb (by omega) n m 0 0#64 0#64 0#64 s hs (by omega) (by omega))
  rw [hp]
  refine ⟨by simp [allQueens, solveBody, leafBody, fastPath], ?_, ?_⟩
  · rw [allQueens, r1, r2]
  · rw [allQueens, r1]

/-- The runtime of the examples with `count_ones`. -/
def onesP : Prims := { sampleP with builtin := fun f => if f = 99 then some fun vs => match vs with
  | [.int n] => .ok (.int (ones (BitVec.ofInt 64 n)))
  | _ => .error .type else none }

theorem onesP_counts : CountsOnes onesP 99 := ⟨_, rfl, fun X => by simp⟩

example : popcountLeaf 99 (allQueens 8) ≠ allQueens 8 ∧ run onesP 80 (popcountLeaf 99 (allQueens 8)) = run onesP 80 (allQueens 8) ∧
    (run onesP 80 (allQueens 8)).error = none := C118_queens onesP rfl onesP_counts 8 80 (by omega) (by omega)

/-! ## A small search -/

/-- Return 3 at the limit; else take the members of `m` one after the other. What stands between the definition of `x` and the loop,
the call in the loop and what stands behind the loop are left open. -/
def members (mid : List Stmt) (call : Expr) (tail : List Stmt) : List Stmt :=
  (atLimit 0 1 3 :: [] ++ .letS 3 false true (.var 2) :: mid) ++
    .whileS (.bin .ne (.var 3) (.lit (.num 0))) (bitBody 3 5 4 call) :: tail

/-- `Let acc be 0`. -/
def fromZero : Stmt := .letS 4 false true (.lit (.num 0))

/-- `Return acc`. -/
def giveAcc : Stmt := .ret (some (.var 4))

/-- The call with the level, the limit and the set in their places. -/
def inPlace : Expr := .call 100 [.bin .add (.var 0) (.lit (.num 1)), .var 1, .var 5, .var 0]

/-- The members of a set, at a level and a limit. -/
def searchWith (mid : List Stmt) (call : Expr) (tail : List Stmt) (k lim m : Int) : List Stmt :=
  [.funDef 100 [(0, false), (1, false), (2, false), (6, false)] (members mid call tail),
   .showS (.call 100 [.lit (.num k), .lit (.num lim), .lit (.num m), .lit (.num 0)])]

/-- What a program prints, before and after the pass. -/
def leafPrint (p : List Stmt) : List (List Char) × List (List Char) := ((run onesP 80 p).output, (run onesP 80 (popcountLeaf 99 p)).output)

/-- A search the theorem is about. -/
example (s : State) (rest : List Stmt) (hs : s.funs 100 = some ⟨[0, 1, 2, 6], atLimit 0 1 3 :: rest⟩) :
    ∃ new, rewriteBody 100 99 (members [fromZero] inPlace [giveAcc]) = some new ∧
      (plain onesP 70).invoke (.fn ⟨[0, 1, 2, 6], new⟩) [.int 4, .int 5, .int 11, .int 0] s = (.ok (.int 9), s) ∧
      (plain onesP 70).invoke (.fn ⟨[0, 1, 2, 6], members [fromZero] inPlace [giveAcc]⟩) [.int 4, .int 5, .int 11, .int 0] s = (.ok (.int 9), s) := by
  refine ⟨_, rfl, ?_⟩
  let L0 : VMap := bound [0, 1, 2, 6] [.int 4, .int 5, .int 11, .int 0] (fun _ => none)
  have hf := inside_frames s
  have v0 : L0 0 = some (.int 4) := rfl
  have v1 : L0 1 = some (.int 5) := rfl
  have v2 : L0 2 = some (.int 11) := rfl
  have h := C118_leaf_partial onesP 100 99 0 1 3 4 5 (by decide) 3 [] [fromZero] _ false true false false (.var 2)
    (.bin .bitAnd (.var 3) (.bin .sub (intLit 0) (.var 3))) (.bin .bitXor (.var 3) (.var 5)) _
    [.bin .add (.var 0) (.lit (.num 1)), .var 1, .var 5, .var 0] rfl (Or.inl rfl)
    (by simp) (by simp [fromZero]) (by simp [fromZero]) 69 (by omega) s [0, 1, 2, 6] [.int 4, .int 5, .int 11, .int 0] (L0.put 3 (some (.int 11)))
    ((L0.put 3 (some (.int 11))).put 4 (some (.int 0))) 11#64 (by decide) 4 5 rfl (by
      show execs (over onesP _) 69 _ (withLocals (inside s) L0 []) = _
      refine (exs_cons (ex_if_false hf (ev_bin (op := .eq) (by decide) (ev_var hf v0) (ev_var hf v1) rfl))).trans ?_
      exact (exs_cons (ex_let hf (ev_var hf v2))).trans rfl) rfl rfl rfl (by
      exact (exs_cons (ex_let hf (ev_int (k := 0)))).trans rfl)
    (fun y hy => by simp [VMap.put, hy]) rfl onesP_counts rfl rest hs (by decide) rfl 0 1 rfl rfl (Or.inl rfl) rfl (by
      intro e he L' sv hL' hbit
      obtain ⟨q, -, -, hq⟩ := hbit
      have g0 : L' 0 = some (.int 4) := by rw [hL' 0 (by decide) (by decide) (by decide)]; rfl
      have g1 : L' 1 = some (.int 5) := by rw [hL' 1 (by decide) (by decide) (by decide)]; rfl
      have he : e ∈ [.bin .add (.var 0) (.lit (.num 1)), .var 1, .var 5, .var 0] := he
      simp only [List.mem_cons, List.not_mem_nil, or_false] at he
      rcases he with rfl | rfl | rfl | rfl
      · exact ⟨_, ev_bin (op := .add) (by decide) (ev_var hf g0) (ev_int (k := 1)) rfl⟩
      · exact ⟨_, ev_var hf g1⟩
      · exact ⟨_, ev_var hf hq⟩
      · exact ⟨_, ev_var hf g0⟩)
  exact h

/-- The pass is at work: two levels are searched. -/
example : leafPrint (searchWith [fromZero] inPlace [giveAcc] 0 2 11) = ([onesP.display (.int 9)], [onesP.display (.int 9)]) ∧
    rewriteBody 100 99 (members [fromZero] inPlace [giveAcc]) ≠ none := by
  refine ⟨by decide +kernel, by simp [show rewriteBody 100 99 (members [fromZero] inPlace [giveAcc]) = some _ from rfl]⟩

/-! ## Where the pass changes what a program prints -/

/-- C118 fails: one more than the level is passed, but not as the level. -/
theorem C118_place_fails :
    leafPrint (searchWith [fromZero] (.call 100 [.var 0, .var 1, .lit (.num 0), .bin .add (.var 0) (.lit (.num 1))]) [giveAcc] 0 1 3) =
      ([onesP.display (.int 0)], [onesP.display (.int 6)]) := by decide +kernel

/-- C118 fails: the call has another limit. -/
theorem C118_limit_fails :
    leafPrint (searchWith [fromZero] (.call 100 [.bin .add (.var 0) (.lit (.num 1)), .bin .add (.var 1) (.lit (.num 1)), .lit (.num 0), .lit (.num 0)]) [giveAcc] 0 1 3) =
      ([onesP.display (.int 0)], [onesP.display (.int 6)]) := by decide +kernel

/-- C118 fails: the set is changed between its definition and the loop. -/
theorem C118_changed_fails : leafPrint (searchWith [fromZero, .set 3 (.lit (.num 1))] inPlace [giveAcc] 0 1 3) =
    ([onesP.display (.int 3)], [onesP.display (.int 6)]) := by decide +kernel

/-- C118 fails: the count does not start at zero. -/
theorem C118_start_fails : leafPrint (searchWith [fromZero, .set 4 (.lit (.num 5))] inPlace [giveAcc] 0 1 3) =
    ([onesP.display (.int 11)], [onesP.display (.int 6)]) := by decide +kernel

/-- C118 fails: the count is changed behind the loop. -/
theorem C118_after_fails : leafPrint (searchWith [fromZero] inPlace [.set 4 (.bin .add (.var 4) (.lit (.num 5))), giveAcc] 0 1 3) =
    ([onesP.display (.int 11)], [onesP.display (.int 6)]) := by decide +kernel

/-- C118 fails: what is printed between the definition of the set and the loop is lost. -/
theorem C118_show_fails : leafPrint (searchWith [fromZero, .showS (.var 3)] inPlace [giveAcc] 0 1 3) =
    ([onesP.display (.int 3), onesP.display (.int 6)], [onesP.display (.int 6)]) := by decide +kernel

end Verif.Props
