/-! # Horn-SAT — model of `logicaffeine_proof/src/hornsat.rs`

Vectors indexed by variables or clauses are functions; every index used is in range, so no access can
panic.  The loops run on fuel; the proofs show that the fuel given is never used up. -/
namespace Verif.Solve.Horn

/-- `struct HornClause` (hornsat.rs:16-21): `body ⇒ head`, or a goal when `head` is `None`. -/
structure Clause where
  body : List Nat
  head : Option Nat
deriving DecidableEq

/-- `enum HornOutcome` (hornsat.rs:40-46). -/
inductive Outcome
  | sat (model : List Bool)
  | unsat (used : List Nat)
deriving DecidableEq

def upd {A : Type} (f : Nat → A) (i : Nat) (a : A) : Nat → A := fun j => if j = i then a else f j

/-- The clause at an index (`clauses[ci]`); the default is never used. -/
def at_ (cs : List Clause) (i : Nat) : Clause := cs.getD i ⟨[], none⟩

/-- `in_body[v]` (hornsat.rs:59-66): the clauses with `v` in their body, once per occurrence, in order. -/
def inBodyFrom (v : Nat) : Nat → List Clause → List Nat
  | _, [] => []
  | i, c :: cs => List.replicate (c.body.count v) i ++ inBodyFrom v (i + 1) cs

/-- The variables of `solve`'s loop: `val`, `forced_by` (`None` for `usize::MAX`), `remaining`, `ready`. -/
structure St where
  val : Nat → Bool
  forcedBy : Nat → Option Nat
  remaining : Nat → Nat
  ready : List Nat

/-- The setup (hornsat.rs:51-68). -/
def init (cs : List Clause) (n : Nat) : St where
  val := fun _ => false
  forcedBy := fun _ => none
  remaining := fun i => ((at_ cs i).body.filter (· < n)).length
  ready := (List.range cs.length).filter fun i => ((at_ cs i).body.filter (· < n)).length = 0

/-- The inner loop over `in_body[h]` (hornsat.rs:79-84). -/
def decAll : List Nat → St → St
  | [], s => s
  | j :: js, s =>
    decAll js (if s.remaining j - 1 = 0
      then { s with remaining := upd s.remaining j (s.remaining j - 1), ready := s.ready ++ [j] }
      else { s with remaining := upd s.remaining j (s.remaining j - 1) })

/-- The `while let Some(v) = stack.pop()` loop of `derivation` (hornsat.rs:98-107).  The stack is kept with
its top first; `seenC` and `seenV` are the two hash sets. -/
def deriveLoop (cs : List Clause) (forcedBy : Nat → Option Nat) :
    Nat → List Nat → List Nat → List Nat → List Nat → List Nat
  | 0, _, _, _, used => used
  | _ + 1, [], _, _, used => used
  | f + 1, v :: stack, seenV, seenC, used =>
    if v ∈ seenV then deriveLoop cs forcedBy f stack seenV seenC used
    else match forcedBy v with
      | none => deriveLoop cs forcedBy f stack (v :: seenV) seenC used
      | some fc =>
        if fc ∈ seenC then deriveLoop cs forcedBy f stack (v :: seenV) seenC used
        else deriveLoop cs forcedBy f ((at_ cs fc).body.reverse ++ stack) (v :: seenV) (fc :: seenC)
          (used ++ [fc])

/-- The total size of the bodies. -/
def totalBody : List Clause → Nat
  | [] => 0
  | c :: cs => c.body.length + totalBody cs

/-- `derivation` (hornsat.rs:93-109). -/
def derivation (cs : List Clause) (goal : Nat) (forcedBy : Nat → Option Nat) : List Nat :=
  deriveLoop cs forcedBy (2 * totalBody cs + 1) (at_ cs goal).body.reverse [] [goal] [goal]

/-- Firing a rule (hornsat.rs:75-86). -/
def fire (cs : List Clause) (n ci h : Nat) (s : St) : St :=
  if h < n ∧ s.val h = false then
    decAll (inBodyFrom h 0 cs) { s with val := upd s.val h true, forcedBy := upd s.forcedBy h (some ci) }
  else s

/-- The main loop (hornsat.rs:69-88). -/
def loop (cs : List Clause) (n : Nat) : Nat → St → Outcome
  | 0, s => .sat ((List.range n).map s.val)
  | f + 1, s =>
    match s.ready with
    | [] => .sat ((List.range n).map s.val)
    | ci :: rest =>
      match (at_ cs ci).head with
      | none => .unsat (derivation cs ci s.forcedBy)
      | some h => loop cs n f (fire cs n ci h { s with ready := rest })

/-- `solve` (hornsat.rs:50-89). -/
def solve (cs : List Clause) (n : Nat) : Outcome := loop cs n (cs.length + 1) (init cs n)

/-- `satisfies` (hornsat.rs:113-121). -/
def satisfies (cs : List Clause) (a : List Bool) : Bool :=
  cs.all fun c =>
    match c.head with
    | some h => !(c.body.all fun b => decide (b < a.length) && a.getD b false) ||
        (decide (h < a.length) && a.getD h false)
    | none => !(c.body.all fun b => decide (b < a.length) && a.getD b false)

/-- Is the body established? (hornsat.rs:134 and 147) -/
def bodyTrue (n : Nat) (val : Nat → Bool) (c : Clause) : Bool := c.body.all fun b => decide (b < n) && val b

/-- What one listed clause does in a pass (hornsat.rs:133-139). -/
def replayOne (n : Nat) (c : Clause) (s : (Nat → Bool) × Bool) : (Nat → Bool) × Bool :=
  match c.head with
  | none => s
  | some h => if bodyTrue n s.1 c ∧ h < n ∧ s.1 h = false then (upd s.1 h true, true) else s

/-- One pass of `is_refutation` over the listed clauses (hornsat.rs:129-140); `none` is the early
`return false` for an index that does not exist. -/
def pass (cs : List Clause) (n : Nat) : List Nat → (Nat → Bool) × Bool → Option ((Nat → Bool) × Bool)
  | [], s => some s
  | ci :: r, s =>
    match cs[ci]? with
    | none => none
    | some c => pass cs n r (replayOne n c s)

/-- The outer loop of `is_refutation` (hornsat.rs:127-144). -/
def replay (cs : List Clause) (n : Nat) (r : List Nat) : Nat → (Nat → Bool) → Option (Nat → Bool)
  | 0, val => some val
  | f + 1, val =>
    match pass cs n r (val, false) with
    | none => none
    | some (val', true) => replay cs n r f val'
    | some (val', false) => some val'

/-- The final test of `is_refutation` (hornsat.rs:145-149). -/
def hitsGoal (cs : List Clause) (n : Nat) (val : Nat → Bool) (ci : Nat) : Bool :=
  match cs[ci]? with
  | none => false
  | some c => c.head.isNone && bodyTrue n val c

/-- `is_refutation` (hornsat.rs:125-150). -/
def isRefutation (cs : List Clause) (n : Nat) (r : List Nat) : Bool :=
  match replay cs n r (n + 1) (fun _ => false) with
  | none => false
  | some val => r.any (hitsGoal cs n val)

/-! ## Specification -/

/-- An assignment satisfies the clauses. -/
def Model (cs : List Clause) (σ : Nat → Bool) : Prop :=
  ∀ c ∈ cs, (∀ b ∈ c.body, σ b = true) → ∃ h, c.head = some h ∧ σ h = true

/-- All variables are below `n`. -/
def InRange (cs : List Clause) (n : Nat) : Prop :=
  ∀ c ∈ cs, (∀ b ∈ c.body, b < n) ∧ ∀ h, c.head = some h → h < n

end Verif.Solve.Horn
