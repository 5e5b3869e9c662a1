import Verif.Lang.Strength

/-!
# Runs of the JIT's integer programs

`reference_eval` (`crates/logicaffeine_forge/src/jit.rs` 3456–3855) on programs of integer operations,
moves, jumps, branches and a return.

Not modelled: `NotBool`, `MagicDivU` (see `magicEval`), and operations on floats, lists, texts and
calls.  A frame is a total function (the code
checks sizes when it compiles a program), and falling off the end (`unreachable!`) is `stuck`.
-/
namespace Verif.Lang.Strength

/-- The instructions (`jit.rs`, `MicroOp`). `branch` compares; its `cmp` is one of the six orders. -/
inductive Instr where
  | const (dst : Nat) (value : BitVec 64)
  | move (dst src : Nat)
  | op (o : MOp) (dst lhs rhs : Nat)
  | shift (dst lhs k : Nat)
  | notInt (dst src : Nat)
  | jump (target : Nat)
  | jumpIfFalse (cond target : Nat)
  | jumpIfTrue (cond target : Nat)
  | branch (cmp : MOp) (lhs rhs target : Nat)
  | ret (src : Nat)
deriving DecidableEq, Repr

/-- How a run ends: a word, a side exit (`None` from an operation), no fuel left (`None`), or past the
end of the program. -/
inductive End where
  | value (w : BitVec 64)
  | exit
  | fuel
  | stuck
deriving DecidableEq, Repr

/-- `frame[dst] = w`. -/
def put (fr : Nat → BitVec 64) (dst : Nat) (w : BitVec 64) : Nat → BitVec 64 :=
  fun i => if i = dst then w else fr i

/-- What one instruction does: end the run, or go on at a place with a frame. -/
inductive Step where
  | done (e : End)
  | next (pc : Nat) (fr : Nat → BitVec 64)

/-- One turn of the loop (`jit.rs` 3463–3852). -/
def stepAt (i : Instr) (pc : Nat) (fr : Nat → BitVec 64) : Step :=
  match i with
  | .const d v => .next (pc + 1) (put fr d v)
  | .move d s => .next (pc + 1) (put fr d (fr s))
  | .op o d l r =>
    match refOp o (fr l) (fr r) with
    | some w => .next (pc + 1) (put fr d w)
    | none => .done .exit
  | .shift d l k => .next (pc + 1) (put fr d (refShift (fr l) k))
  | .notInt d s => .next (pc + 1) (put fr d (~~~ fr s))
  | .jump t => .next t fr
  | .jumpIfFalse c t => if fr c = 0 then .next t fr else .next (pc + 1) fr
  | .jumpIfTrue c t => if fr c ≠ 0 then .next t fr else .next (pc + 1) fr
  | .branch c l r t =>
    match refOp c (fr l) (fr r) with
    | some w => if w ≠ 0 then .next (pc + 1) fr else .next t fr
    | none => .done .exit
  | .ret s => .done (.value (fr s))

/-- `reference_eval` (`jit.rs` 3456–3855). -/
def refRun (prog : List Instr) : Nat → Nat → (Nat → BitVec 64) → End
  | fuel, pc, fr =>
    match prog[pc]? with
    | none => .stuck
    | some i =>
      match fuel with
      | 0 => .fuel
      | f + 1 =>
        match stepAt i pc fr with
        | .done e => e
        | .next pc' fr' => refRun prog f pc' fr'

end Verif.Lang.Strength
