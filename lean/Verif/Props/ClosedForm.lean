import Verif.Lang.ClosedFormDefer
import Verif.Lang.ClosedFormRec
import Verif.Lang.DceLemmas
import Verif.Props.Fold
/-!
# C117: closed forms of loops and recursions

A counting loop replaced by a formula, a loop whose remainders are put off, and a recursion replaced by a formula leave what the
loop or the recursion left.
-/
namespace Verif.Props
open Verif.Lang Verif.Lang.CF
open Verif.Lang.Symm (over)

/-! ## Loops -/

/-- C117: a loop replaced by its closed form leaves the state the loop leaves: if the values the compiler found for its variables are
the values they have, the limit is a number that the loop does not change, and the body is the accumulation and the increment, in
this order or, when the accumulation does not read the counter, in the other. -/
theorem C117_loop_partial (P : Prims) (n : Nat) (s : State) (acc ctr : Sym) (v inc lim : Expr) (op : BinOp) (body before rep : List Stmt) (N : Int)
    (hbody : body = [.set acc v, .set ctr inc] ∨ body = [.set ctr inc, .set acc v] ∧ v ≠ .bin .add (.var acc) (.var ctr))
    (h : closeLoop (.bin op (.var ctr) lim) body before = some rep)
    (hinit : ∀ x k, findInit before x = some k → s.env.lookup x = some (.int k))
    (hlim : Steady (plain P n) lim N s acc ctr)
    (hn : ∀ k, s.env.lookup ctr = some (.int k) → (N + 1 - k).toNat < n) :
    execs (plain P n) n rep s = exec (plain P n) n (.whileS (.bin op (.var ctr) lim) body) s :=
  loop_sound (inv := invokeN P (applyOp P) (fun _ _ => true) n) hbody h hinit hlim hn

/-- C117: a loop whose remainder is put off leaves the state the loop leaves, under the same conditions. -/
theorem C117_defer_partial (P : Prims) (n : Nat) (s : State) (acc ctr stop : Sym) (v inc lim : Expr) (op : BinOp) (before rep : List Stmt) (N : Int)
    (h1 : acc ≠ stop) (h2 : ctr ≠ stop)
    (h : deferMod stop (.bin op (.var ctr) lim) [.set acc v, .set ctr inc] before = some rep)
    (hinit : ∀ x k, findInit before x = some k → s.env.lookup x = some (.int k))
    (hlim : Steady (plain P n) lim N s acc ctr)
    (hn : ∀ k, s.env.lookup ctr = some (.int k) → (N + 1 - k).toNat < n) :
    execs (plain P n) n rep s = exec (plain P n) n (.whileS (.bin op (.var ctr) lim) [.set acc v, .set ctr inc]) s :=
  defer_sound (inv := invokeN P (applyOp P) (fun _ _ => true) n) h1 h2 h hinit hlim hn

/-- C117: the value the compiler finds for a variable in the statements before the loop is the value it has after them, if they call
nothing. -/
theorem C117_init_partial (P : Prims) (n : Nat) (before : List Stmt) (s' : State) (hq : ∀ st ∈ before, QuietStmt st)
    (h : execs (plain P n) n before {} = (.ok .cont, s')) (x : Sym) (k : Int) (hk : findInit before x = some k) :
    s'.env.lookup x = some (.int k) :=
  findInit_run (I := plain P n) hq (fun _ _ _ => rfl) h hk

/-- C117: a limit without calls that does not read the two variables is not changed by the loop. -/
theorem C117_steady (P : Prims) (n : Nat) (acc ctr : Sym) (lim : Expr) (h : Simple acc ctr lim) (s s' : State) (N : Int)
    (he : evalE (plain P n) lim s = (.ok (.int N), s')) : Steady (plain P n) lim N s acc ctr := simple_steady h he

theorem closeStmt_same {stop : Sym} {done : List Stmt} {st : Stmt} (hq : QuietStmt st) (hf : ∀ f ps b, st ≠ .funDef f ps b) :
    closeStmt stop done st = [st] := by
  cases hq with
  | funDef f ps b => exact absurd rfl (hf f ps b)
  | _ => simp only [closeStmt]

theorem closeBlock_same {stop : Sym} {rest : List Stmt} : ∀ {l : List Stmt} {done : List Stmt}, (∀ st ∈ l, QuietStmt st) → (∀ f ps b, .funDef f ps b ∉ l) →
    closeBlock stop done (l ++ rest) = closeBlock stop (done ++ l) rest
  | [], done, _, _ => by simp
  | st :: l, done, hq, hf => by
    rw [List.cons_append, closeBlock, closeStmt_same (hq st (by simp)) (fun f ps b h => hf f ps b (by simp [h])),
      closeBlock_same (fun st h => hq st (by simp [h])) (fun f ps b h => hf f ps b (by simp [h]))]
    simp

theorem solveRecursions_same {isInt : Sym → Bool} {prog : List Stmt} (hf : ∀ f ps b, .funDef f ps b ∉ prog) : solveRecursions isInt prog = prog := by
  unfold solveRecursions
  conv_rhs => rw [← List.map_id prog]
  apply List.map_congr_left
  intro st hst
  unfold solveFun
  split
  · exact absurd hst (hf _ _ _)
  · rfl

/-- C117: a program that runs a counting loop between statements without calls prints what it printed, and fails as it failed,
whichever closed form the pass finds, and if it finds none. -/
theorem C117_program_partial (P : Prims) (isInt : Sym → Bool) (n : Nat) (pre post : List Stmt) (acc ctr stop : Sym) (v inc lim : Expr) (op : BinOp)
    (hq : ∀ st ∈ pre ++ post, QuietStmt st) (hf : ∀ f ps b, .funDef f ps b ∉ pre ++ post) (h1 : acc ≠ stop) (h2 : ctr ≠ stop)
    (hs : Simple acc ctr lim)
    (hlim : ∀ s, execs (plain P n) n pre {} = (.ok .cont, s) → ∃ N s', evalE (plain P n) lim s = (.ok (.int N), s') ∧
      ∀ k, s.env.lookup ctr = some (.int k) → (N + 1 - k).toNat < n) :
    run P n (closedForm isInt stop (pre ++ ([.whileS (.bin op (.var ctr) lim) [.set acc v, .set ctr inc]] ++ post))) =
      run P n (pre ++ ([.whileS (.bin op (.var ctr) lim) [.set acc v, .set ctr inc]] ++ post)) := by
  set w : Stmt := .whileS (.bin op (.var ctr) lim) [.set acc v, .set ctr inc] with hw
  have e1 : closedForm isInt stop (pre ++ ([w] ++ post)) = pre ++ (closeStmt stop pre w ++ post) := by
    unfold closedForm
    rw [solveRecursions_same (by intro f ps b h; simp [hw] at h; exact hf f ps b (by simp [h])),
      closeBlock_same (fun st h => hq st (by simp [h])) (fun f ps b h => hf f ps b (by simp [h])), List.nil_append, List.cons_append, List.nil_append, closeBlock]
    have := closeBlock_same (stop := stop) (rest := []) (l := post) (done := pre ++ closeStmt stop pre w) (fun st h => hq st (by simp [h]))
      (fun f ps b h => hf f ps b (by simp [h]))
    rw [List.append_nil] at this
    rw [this, closeBlock]
    simp
  rw [e1]
  unfold run
  congr 1
  rw [Verif.Lang.execs_append, Verif.Lang.execs_append]
  cases hp : execs (plain P n) n pre {} with
  | mk r s =>
    cases r with
    | error e => simp [Res.bind]
    | ok fl =>
      cases fl with
      | cont =>
        simp only [Res.bind]
        obtain ⟨N, s', hN, hn⟩ := hlim s hp
        have hst := C117_steady P n acc ctr lim hs s s' N hN
        have hinit := C117_init_partial P n pre s (fun st h => hq st (by simp [h])) hp
        have : execs (plain P n) n (closeStmt stop pre w) s = execs (plain P n) n [w] s := by
          have one : execs (plain P n) n [w] s = exec (plain P n) n w s := by
            simp only [execs]
            rcases exec (plain P n) n w s with ⟨r, s1⟩
            cases r with
            | error e => rfl
            | ok fl => cases fl <;> rfl
          rw [one]
          simp only [hw, closeStmt]
          split
          · rename_i rep hrep
            exact C117_loop_partial P n s acc ctr v inc lim op _ pre rep N (Or.inl rfl) hrep hinit hst hn
          · split
            · rename_i rep hrep
              exact C117_defer_partial P n s acc ctr stop v inc lim op pre rep N h1 h2 hrep hinit hst hn
            · simp only [closeBlock, closeStmt, List.nil_append, List.cons_append]
              rw [← hw]
              exact one
        rw [Verif.Lang.execs_append, Verif.Lang.execs_append, this]
      | _ => simp [Res.bind]

/-- `Let i be 1. Let s be 0. Let n be 6. While i <= n: (body). Show s. Show i.` -/
def counting (start init limit : Int) (op : BinOp) (body : List Stmt) : List Stmt :=
  [.letS 0 false true (int start), .letS 1 false true (int init), .letS 2 false true (int limit),
   .whileS (.bin op (.var 0) (.var 2)) body, .showS (.var 1), .showS (.var 0)]

/-- The body `Set s to (e). Set i to i + 1.` -/
def adding (e : Expr) : List Stmt := [.set 1 e, .set 0 (.bin .add (.var 0) (int 1))]

/-- What a program prints before and after the pass, without functions known to be of numbers. -/
def closedPrint (p : List Stmt) : List Text × List Text :=
  ((run sampleP 40 p).output, (run sampleP 40 (closedForm (fun _ => true) 9 p)).output)

/-- A program has a loop among its statements. -/
def hasLoop (p : List Stmt) : Bool := p.any fun st => match st with | .whileS .. => true | _ => false

example : hasLoop (closedForm (fun _ => true) 9 (counting 1 0 6 .le (adding (.bin .add (.var 1) (.var 0))))) = false ∧
    run sampleP 40 (closedForm (fun _ => true) 9 (counting 1 0 6 .le (adding (.bin .add (.var 1) (.var 0))))) =
      run sampleP 40 (counting 1 0 6 .le (adding (.bin .add (.var 1) (.var 0)))) := by
  refine ⟨by decide +kernel, ?_⟩
  refine C117_program_partial sampleP (fun _ => true) 40 [.letS 0 false true (int 1), .letS 1 false true (int 0), .letS 2 false true (int 6)]
    [.showS (.var 1), .showS (.var 0)] 1 0 9 _ _ (.var 2) .le ?_ ?_ (by decide) (by decide) (.var (by decide) (by decide)) ?_
  · intro st hst
    simp only [List.cons_append, List.nil_append, List.mem_cons, List.not_mem_nil, or_false] at hst
    rcases hst with rfl | rfl | rfl | rfl | rfl
    · exact .letS _ _ _ (.lit _)
    · exact .letS _ _ _ (.lit _)
    · exact .letS _ _ _ (.lit _)
    · exact .showS (.var _)
    · exact .showS (.var _)
  · intro f ps b h
    simp at h
  · intro s h
    have : s = (execs (plain sampleP 40) 40 [.letS 0 false true (int 1), .letS 1 false true (int 0), .letS 2 false true (int 6)] {}).2 := by rw [h]
    subst this
    exact ⟨6, _, rfl, by intro k hk; have : k = 1 := by simpa using (show some (Value.int 1) = some (Value.int k) from hk).symm
                         subst this; decide⟩

example : closedPrint (counting 1 0 6 .le (adding (.bin .add (.var 1) (.var 0)))) =
    ([sampleP.display (.int 21), sampleP.display (.int 7)], [sampleP.display (.int 21), sampleP.display (.int 7)]) := by decide +kernel

/-! ## Where the loop changes -/

/-- C117 fails: when the counter is increased first, the sum of the numbers from the new counter on becomes the sum from the old one:
`1 to 3` gives 6 instead of 9. -/
theorem C117_order_fails : closedPrint (counting 1 0 3 .le [.set 0 (.bin .add (.var 0) (int 1)), .set 1 (.bin .add (.var 1) (.var 0))]) =
    ([sampleP.display (.int 9), sampleP.display (.int 4)], [sampleP.display (.int 6), sampleP.display (.int 4)]) := by
  decide +kernel

/-- C117 fails: the same order, under a remainder. -/
theorem C117_defer_fails : closedPrint (counting 1 0 3 .le [.set 0 (.bin .add (.var 0) (int 1)), .set 1 (.bin .mod (.bin .add (.var 1) (.var 0)) (int 10))]) =
    ([sampleP.display (.int 9), sampleP.display (.int 4)], [sampleP.display (.int 6), sampleP.display (.int 4)]) := by
  decide +kernel

/-- C117 fails: a definition in the body, here a division by zero, is dropped with the loop. -/
theorem C117_let_fails :
    (run sampleP 40 (counting 1 0 3 .le (.letS 5 false false (.bin .div (int 1) (int 0)) :: adding (.bin .add (.var 1) (.var 0))))).error ≠ none ∧
    (run sampleP 40 (closedForm (fun _ => true) 9
      (counting 1 0 3 .le (.letS 5 false false (.bin .div (int 1) (int 0)) :: adding (.bin .add (.var 1) (.var 0)))))).error = none := by
  decide +kernel

/-- C117 fails: a limit that reads the accumulator. -/
theorem C117_limit_fails : closedPrint
    [.letS 0 false true (int 1), .letS 1 false true (int 0), .whileS (.bin .lt (.var 0) (.bin .sub (int 10) (.var 1))) (adding (.bin .add (.var 1) (int 1))),
     .showS (.var 1), .showS (.var 0)] =
    ([sampleP.display (.int 5), sampleP.display (.int 6)], [sampleP.display (.int 9), sampleP.display (.int 1)]) := by
  decide +kernel

/-- C117 fails: a call between the definition and the loop that sets the accumulator is not seen. -/
theorem C117_call_fails : closedPrint
    [.funDef 20 [(6, false)] [.set 1 (int 100), .ret (some (.var 6))],
     .letS 0 false true (int 1), .letS 1 false true (int 0), .letS 2 false true (.call 20 [int 3]),
     .whileS (.bin .le (.var 0) (.var 2)) (adding (.bin .add (.var 1) (.var 0))), .showS (.var 1)] =
    ([sampleP.display (.int 106)], [sampleP.display (.int 6)]) := by
  decide +kernel

/-- Numbers and halves: the fraction with code `k` is `k / 2`. -/
def halvesP : Prims := { sampleP with
  fsub := fun a b => a - b
  ofInt := fun n => (2 * n).toNat
  cmpIF := fun n f => some (compare (2 * n) f) }

/-- C117 fails: a limit that is not whole. The loop below 2 1/2 runs for 1 and 2; its closed form leaves the accumulator at 1 1/2. -/
theorem C117_float_fails :
    (run halvesP 40 [.letS 0 false true (int 1), .letS 1 false true (int 0), .letS 2 false true (.lit (.flt 5)),
      .whileS (.bin .lt (.var 0) (.var 2)) (adding (.bin .add (.var 1) (int 1))), .showS (.var 1)]).output = [halvesP.display (.int 2)] ∧
    (run halvesP 40 (closedForm (fun _ => true) 9 [.letS 0 false true (int 1), .letS 1 false true (int 0), .letS 2 false true (.lit (.flt 5)),
      .whileS (.bin .lt (.var 0) (.var 2)) (adding (.bin .add (.var 1) (int 1))), .showS (.var 1)])).output = [halvesP.display (.flt 3)] := by
  decide +kernel

/-! ## Recursions -/

/-- C117: a recursion replaced by its closed form. For every number, either the function returned a number and the new function
returns the same number at once, whatever calls do; or the new body does what the old body does. The base value of the recursion
must not be negative. -/
theorem C117_recursion_partial (P : Prims) (isInt : Sym → Bool) (prog : List Stmt) (F : Sym → Option Fun)
    (hF : ∀ f p b body, .funDef f [(p, b)] body ∈ prog → F f = some ⟨[p], body⟩ ∧ P.builtin f = none)
    (f p : Sym) (b : Bool) (body body' : List Stmt) (hm : .funDef f [(p, b)] body ∈ prog)
    (h : solveFun (solveAll isInt prog) (.funDef f [(p, b)] body) = .funDef f [(p, b)] body')
    (h0 : ∀ c k w, body = [.ifS c [.ret (some (.lit (.num k)))] [], .ret (some w)] → 0 ≤ k) (x : Int) :
    (∃ y, Answers P F f x y ∧ ∀ (inv : Target → List Value → State → Res Value) (m : Nat) (st : State),
      invokeFun ⟨P, applyOp P, fun _ _ => true, inv⟩ m ⟨[p], body'⟩ [.int x] st = (.ok (.int y), st)) ∨
    ∀ (inv : Target → List Value → State → Res Value) (m : Nat) (st : State),
      invokeFun ⟨P, applyOp P, fun _ _ => true, inv⟩ m ⟨[p], body'⟩ [.int x] st =
        invokeFun ⟨P, applyOp P, fun _ _ => true, inv⟩ m ⟨[p], body⟩ [.int x] st :=
  recursion_sound hF hm h h0 x

/-- C117: the new body of a function is a test in front of the old body, and for every number that passes the test the formula is
computed without leaving the numbers of 64 bits. -/
theorem C117_word (t : Table) (f p : Sym) (b : Bool) (body body' : List Stmt) (hne : body' ≠ body)
    (h : solveFun t (.funDef f [(p, b)] body) = .funDef f [(p, b)] body') :
    ∃ N e, 0 ≤ N ∧ Word N ∧
      body' = .ifS (.bin .and (.bin .ge (.var p) (.lit (.num 0))) (.bin .le (.var p) (.lit (.num N)))) [.ret (some e)] [] :: body ∧
      ∀ n : Nat, (n : Int) ≤ N → ∃ y, InWord p n e y := by
  unfold solveFun at h
  simp only at h
  split at h
  swap
  · simp only [Stmt.funDef.injEq, true_and] at h
    exact absurd h.symm hne
  rename_i b2 hb2
  simp only [Stmt.funDef.injEq, true_and] at h
  subst h
  obtain ⟨form, _, hg⟩ := Option.bind_eq_some_iff.1 hb2
  split_ifs at hg
  obtain ⟨N, e, h1, h2, h3, h4⟩ := guarded_word hg
  exact ⟨N, e, h1, h2, h3, fun n hn => ⟨_, h4 n hn⟩⟩

/-- C117: where the remainder is put off, the range that is tested keeps the numbers of 64 bits: for every limit in it, fifteen less is
one, and so is every sum of a remainder and sixteen times a value of the counter up to the limit. -/
theorem C117_chunk_word (stop : Sym) (cond : Expr) (body before rep : List Stmt) (h : deferMod stop cond body before = some rep) :
    ∃ (acc ctr : Sym) (lim : Expr) (p lo hi : Int) (t e : List Stmt),
      rep = [.ifS (.bin .and (.bin .ge lim (.lit (.num lo))) (.bin .le lim (.lit (.num hi)))) t e] ∧
      .set acc (.bin .mod (.bin .add (.var acc) (.var ctr)) (.lit (.num p))) ∈ body ∧
      ∀ N, lo ≤ N → N ≤ hi → Word (N - 15) ∧ ∀ a c, 0 ≤ a → a < p → 0 ≤ c → c ≤ N → Word (a + 16 * c) := by
  unfold deferMod at h
  split at h
  · cases h
  rename_i ctr _
  split at h
  swap
  · cases h
  rename_i lim incl acc value g1 g2
  split at h
  swap
  · cases h
  rename_i p a0 c0 k1 _ _
  obtain ⟨hp, rfl⟩ := modSum_spec k1
  split_ifs at h
  cases h
  refine ⟨acc, ctr, lim, p, _, _, _, _, rfl, ?_, ?_⟩
  · unfold deferBody at g2
    split at g2
    · split_ifs at g2 <;> cases g2 <;> simp [CF.int]
    · cases g2
  · intro N h1 h2
    have h3 : N * 16 ≤ 2 ^ 63 - 1 - (p - 1) := le_trans (by omega) (Int.ediv_mul_le (2 ^ 63 - 1 - (p - 1)) (b := 16) (by decide))
    refine ⟨⟨by omega, by omega⟩, fun a c ha hap hc hcN => ⟨by omega, by omega⟩⟩

example : ∃ rep, deferMod 9 (.bin .le (.var 0) (.var 2)) [.set 1 (.bin .mod (.bin .add (.var 1) (.var 0)) (.lit (.num 7))), .set 0 (.bin .add (.var 0) (.lit (.num 1)))]
    [.letS 1 false true (.lit (.num 0)), .letS 0 false true (.lit (.num 1))] = some rep := ⟨_, rfl⟩

/-- C117: a function that is not known to take a number and return a number stays as it is. -/
theorem C117_untouched (isInt : Sym → Bool) (prog : List Stmt) (f : Sym) (ps : List Param) (body : List Stmt) (h : isInt f = false) :
    solveFun (solveAll isInt prog) (.funDef f ps body) = .funDef f ps body := by
  unfold solveFun
  split
  · rename_i g p b body' e
    cases e
    rw [untouched h]
    rfl
  · rfl

/-- `If p = 0: Return base. Return step(f(p - 1)).` -/
def recBody (base : Int) (f step p : Sym) : List Stmt :=
  [.ifS (.bin .eq (.var p) (int 0)) [.ret (some (int base))] [], .ret (some (.call step [.call f [.bin .sub (.var p) (int 1)]]))]

/-- `f(0) = base`, `f(n) = step(f(n - 1))`. -/
def recursion (base : Int) (f step p : Sym) : Stmt := .funDef f [(p, false)] (recBody base f step p)

/-- The functions a program defines. -/
def run1 (prog : List Stmt) (f : Sym) : Option Fun := prog.findSome? fun st =>
  match st with
  | .funDef g ps body => if g = f then some ⟨ps.map Prod.fst, body⟩ else none
  | _ => none

/-- `double(x) = x + x + 1`, `f(0) = 3`, `f(n) = double(f(n - 1))`: `f(n) = 4 * 2 ^ n - 1`. -/
def doublingRec : List Stmt :=
  [.funDef 50 [(0, false)] [.ret (some (.bin .add (.bin .add (.var 0) (.var 0)) (int 1)))], recursion 3 51 50 1, .showS (.call 51 [int 2])]

example : solveAll (fun _ => true) doublingRec = [(50, .affine 2 1), (51, .geo2 4 1)] ∧
    closedPrint doublingRec = ([sampleP.display (.int 15)], [sampleP.display (.int 15)]) := by decide +kernel

example : ∃ body', body' ≠ recBody 3 51 50 1 ∧ solveFun [(51, .geo2 4 1)] (recursion 3 51 50 1) = .funDef 51 [(1, false)] body' :=
  ⟨_, by simp [recBody], rfl⟩

example (x : Int) : ∃ body', body' ≠ recBody 3 51 50 1 ∧ solveFun (solveAll (fun _ => true) doublingRec) (recursion 3 51 50 1) = .funDef 51 [(1, false)] body' ∧
    ((∃ y, Answers sampleP (run1 doublingRec) 51 x y ∧ ∀ (inv : Target → List Value → State → Res Value) (m : Nat) (st : State),
      invokeFun ⟨sampleP, applyOp sampleP, fun _ _ => true, inv⟩ m ⟨[1], body'⟩ [.int x] st = (.ok (.int y), st)) ∨
    ∀ (inv : Target → List Value → State → Res Value) (m : Nat) (st : State),
      invokeFun ⟨sampleP, applyOp sampleP, fun _ _ => true, inv⟩ m ⟨[1], body'⟩ [.int x] st =
        invokeFun ⟨sampleP, applyOp sampleP, fun _ _ => true, inv⟩ m ⟨[1], recBody 3 51 50 1⟩ [.int x] st) := by
  refine ⟨_, ?_, rfl, C117_recursion_partial sampleP (fun _ => true) doublingRec _ ?_ 51 1 false _ _ (List.mem_cons_of_mem _ List.mem_cons_self) rfl ?_ x⟩
  · simp [recBody]
  · intro f p b body h
    simp only [doublingRec, recursion, List.mem_cons, List.not_mem_nil, or_false, Stmt.funDef.injEq, reduceCtorEq] at h
    rcases h with ⟨rfl, h, rfl⟩ | ⟨rfl, h, rfl⟩ <;> · cases h; exact ⟨rfl, rfl⟩
  · intro c k w h
    simp [recBody, int] at h
    omega

/-- `h(x) = x + 2`, `g(0) = 5`, `g(n) = h(g(n - 1))`, `f(0) = -3`, `f(n) = g(f(n - 1))`. Show `f(1)`. -/
def negativeBase : List Stmt :=
  [.funDef 52 [(0, false)] [.ret (some (.bin .add (.var 0) (int 2)))], recursion 5 53 52 0, recursion (-3) 54 53 1, .showS (.call 54 [int 1])]

/-- C117 fails: a recursion that starts below 0. `f(1)` is `g(-3)`, which never ends; after the pass it is -1. -/
theorem C117_recursion_fails : (∀ n, (run sampleP n negativeBase).error ≠ none) ∧
    (run sampleP 40 (closedForm (fun _ => true) 9 negativeBase)).error = none ∧
    (run sampleP 40 (closedForm (fun _ => true) 9 negativeBase)).output = [sampleP.display (.int (-1))] := by
  refine ⟨fun n => ?_, by decide +kernel⟩
  have key : ∀ (S : State) (a b c : Fun), S.funs 54 = some a → S.funs 53 = some b → S.funs 52 = some c →
      a = ⟨[1], recBody (-3) 54 53 1⟩ → b = ⟨[0], recBody 5 53 52 0⟩ → c.params.length = 1 → Fails (evalE (plain sampleP n) (.call 54 [int 1]) S) := by
    intro S a b c ha hb hc ea eb lc
    refine call_fails' (P := sampleP) (inv := invokeN sampleP (applyOp sampleP) (fun _ _ => true) n) rfl ha (by rw [ea]; rfl) (ev_num (k := 1)) ?_
    exact start_fails (P := sampleP) (F := S.funs) (f := 54) (g := 53) (step := 52) ea eb (by decide) (by decide) (by decide) rfl rfl rfl ha hb hc lc n S rfl
  have e : ∃ S : State, S.funs 54 = some ⟨[1], recBody (-3) 54 53 1⟩ ∧ S.funs 53 = some ⟨[0], recBody 5 53 52 0⟩ ∧ (∃ b, S.funs 52 = some ⟨[0], b⟩) ∧
      execs (plain sampleP n) n negativeBase {} = execs (plain sampleP n) n [.showS (.call 54 [int 1])] S :=
    ⟨_, rfl, rfl, ⟨_, rfl⟩, rfl⟩
  obtain ⟨S, ha, hb, ⟨b, hc⟩, h⟩ := e
  obtain ⟨er, s', hk⟩ := key S _ _ _ ha hb hc rfl rfl rfl
  simp only [run, h, execs, exec, hk, Res.bind, outcome]
  simp

end Verif.Props
