import Verif.Lang.JitRun

/-!
# Copy propagation in the JIT

`copy_propagate` (`crates/logicaffeine_jit/src/lib.rs` 4492–4668) on the programs
of `Lang/JitRun.lean`: a read of a slot that holds a copy of another slot, of a constant already loaded or
of a value already computed is redirected; then instructions whose slot is never read are removed, and those
whose slot is written again before it is read.

Simplified: hash maps are functions.
-/
namespace Verif.Lang.Strength

/-- The key of a pure operation: what it computes (`none` is `NotInt`) and its operand slots. -/
abbrev Key := Option MOp × Nat × Nat

/-- The three maps (`lib.rs` 4520–4537). -/
structure Tab where
  root : Nat → Option Nat
  cst : BitVec 64 → Option Nat
  val : Key → Option Nat

/-- Cleared maps. -/
def Tab.empty : Tab := ⟨fun _ => none, fun _ => none, fun _ => none⟩

/-- `map.insert(k, v)`. -/
def ins {α β : Type} [DecidableEq α] (f : α → Option β) (k : α) (v : β) : α → Option β :=
  fun x => if x = k then some v else f x

/-- The slot a read is redirected to (`lib.rs` 4544–4548). -/
def Tab.src (T : Tab) (s : Nat) : Nat := (T.root s).getD s

/-- `micro_reads_mut` with the redirection (`lib.rs` 4389–4442, 4544–4548). -/
def redirect (T : Tab) : Instr → Instr
  | .const d v => .const d v
  | .move d s => .move d (T.src s)
  | .op o d l r => .op o d (T.src l) (T.src r)
  | .shift d l k => .shift d (T.src l) k
  | .notInt d s => .notInt d (T.src s)
  | .jump t => .jump t
  | .jumpIfFalse c t => .jumpIfFalse (T.src c) t
  | .jumpIfTrue c t => .jumpIfTrue (T.src c) t
  | .branch c l r t => .branch c (T.src l) (T.src r) t
  | .ret s => .ret (T.src s)

/-- Operations whose operands are sorted in the key (`lib.rs` 5597–5603). -/
def commutes : MOp → Bool
  | .add | .mul | .band | .bor | .bxor | .eq | .ne => true
  | _ => false

/-- `micro_pure_value_key` (`lib.rs` 5592–5615). -/
def keyOf : Instr → Option (Key × Nat)
  | .op o d l r =>
    if o = .div ∨ o = .mod then none
    else if commutes o then some ((some o, min l r, max l r), d)
    else some ((some o, l, r), d)
  | .notInt d s => some ((none, s, s), d)
  | _ => none

/-- `micro_defs` (`lib.rs` 4444–4465). -/
def defOf : Instr → Option Nat
  | .const d _ | .move d _ | .op _ d _ _ | .shift d _ _ | .notInt d _ => some d
  | _ => none

/-- `micro_target_const` (`lib.rs` 5618–5625). -/
def targetOf : Instr → Option Nat
  | .jump t | .jumpIfFalse _ t | .jumpIfTrue _ t | .branch _ _ _ t => some t
  | _ => none

/-- What is known of a slot is forgotten when it is written (`lib.rs` 4553–4558). -/
def Tab.kill (T : Tab) (d : Nat) : Tab where
  root := fun k => (T.root k).filter fun v => k != d && v != d
  cst := fun c => (T.cst c).filter fun s => s != d
  val := fun k => (T.val k).filter fun s => k.2.1 != d && k.2.2 != d && s != d

/-- The copies and constants of one instruction (`lib.rs` 4559–4576). -/
def Tab.learn (T : Tab) : Instr → Tab
  | .move d s =>
    if d ≠ s then
      if T.src s ≠ d then { T with root := ins T.root d (T.src s) } else T
    else T
  | .const d v =>
    match T.cst v with
    | some d2 => if d2 ≠ d then { T with root := ins T.root d d2 } else T
    | none => { T with cst := ins T.cst v d }
  | _ => T

/-- The maps after an instruction, its reads redirected (`lib.rs` 4549–4586). -/
def Tab.after (T : Tab) (i : Instr) : Tab :=
  let T1 := match defOf i with
    | some d => T.kill d
    | none => T
  let T2 := T1.learn i
  match keyOf i with
  | none => T2
  | some (k, d) =>
    match T.val k with
    | some h => if h ≠ d then { T2 with root := ins T2.root d h } else { T2 with val := ins T2.val k d }
    | none => { T2 with val := ins T2.val k d }

/-- A jump leads here (`lib.rs` 4512–4519). -/
def leader (prog : List Instr) (j : Nat) : Bool := prog.any fun i => targetOf i == some j

/-- The maps are cleared where a jump leads (`lib.rs` 4539–4543). -/
def enter (prog : List Instr) (j : Nat) (T : Tab) : Tab := if leader prog j then .empty else T

/-- The loop of the first phase (`lib.rs` 4538–4593). -/
def scan (prog : List Instr) : Nat → Tab → List Instr → List Instr
  | _, _, [] => []
  | j, T, i :: rest =>
    let T' := enter prog j T
    let i' := redirect T' i
    i' :: scan prog (j + 1) (T'.after i') rest

/-- The first phase of `copy_propagate`. -/
def propagate (prog : List Instr) : List Instr := scan prog 0 .empty prog

/-- `micro_read_slots` (`lib.rs` 4327–4387). -/
def readsOf : Instr → List Nat
  | .const _ _ | .jump _ => []
  | .move _ s | .shift _ s _ | .notInt _ s | .ret s | .jumpIfFalse s _ | .jumpIfTrue s _ => [s]
  | .op _ _ l r | .branch _ l r _ => [l, r]

/-- A target past a removed instruction moves up (`lib.rs` 4611–4617). -/
def shiftTo (idx t : Nat) : Nat := if t > idx then t - 1 else t

/-- `micro_target_mut` with the shift (`lib.rs` 4471–4478, 4611–4617). -/
def retarget (idx : Nat) : Instr → Instr
  | .jump t => .jump (shiftTo idx t)
  | .jumpIfFalse c t => .jumpIfFalse c (shiftTo idx t)
  | .jumpIfTrue c t => .jumpIfTrue c (shiftTo idx t)
  | .branch c l r t => .branch c l r (shiftTo idx t)
  | i => i

/-- `micro.remove(idx)` and the new targets (`lib.rs` 4610–4617). -/
def removeAt (prog : List Instr) (idx : Nat) : List Instr := (prog.eraseIdx idx).map (retarget idx)

/-- The slot is a scratch slot that nothing reads (`lib.rs` 4506–4510, 4597–4603). -/
def deadSlot (removable : Nat → Bool) (prog : List Instr) (d : Nat) : Bool :=
  removable d && !prog.any fun i => (readsOf i).contains d

/-- The instruction can go (`lib.rs` 4604–4608). -/
def victim (removable : Nat → Bool) (prog : List Instr) : Instr → Bool
  | .move d s => d != s && deadSlot removable prog d
  | .const d _ => deadSlot removable prog d
  | i =>
    match keyOf i with
    | some (_, d) => deadSlot removable prog d
    | none => false

/-- The loop of the second phase (`lib.rs` 4596–4618), each turn of which removes an instruction; `n` bounds
the turns and is the length of the program. -/
def trim (removable : Nat → Bool) : Nat → List Instr → List Instr
  | 0, prog => prog
  | n + 1, prog =>
    match prog.findIdx? (victim removable prog) with
    | none => prog
    | some idx => trim removable n (removeAt prog idx)

/-- The walk forward of the third phase (`lib.rs` 4645–4656): `d` is written in the rest of the program before
it is read and before an instruction with a target. -/
def rewritten (d : Nat) : List Instr → Bool
  | [] => false
  | i :: rest =>
    if (readsOf i).contains d then false
    else if defOf i = some d then true
    else if (targetOf i).isSome then false
    else rewritten d rest

/-- The instruction can go: what it writes is written again unread (`lib.rs` 4628–4656). -/
def overwritten (removable : Nat → Bool) (i : Instr) (rest : List Instr) : Bool :=
  match i with
  | .move d s => d != s && (removable d && rewritten d rest)
  | .const d _ => removable d && rewritten d rest
  | i =>
    match keyOf i with
    | some (_, d) => removable d && rewritten d rest
    | none => false

/-- The first such place (`lib.rs` 4628–4657). -/
def firstOverwritten (removable : Nat → Bool) : List Instr → Option Nat
  | [] => none
  | i :: rest => if overwritten removable i rest then some 0 else (firstOverwritten removable rest).map (· + 1)

/-- The loop of the third phase (`lib.rs` 4626–4667); `n` as in `trim`. -/
def sweep (removable : Nat → Bool) : Nat → List Instr → List Instr
  | 0, prog => prog
  | n + 1, prog =>
    match firstOverwritten removable prog with
    | none => prog
    | some idx => sweep removable n (removeAt prog idx)

/-- The pass (`copy_propagate`, `lib.rs` 4492–4668). -/
def copyPass (removable : Nat → Bool) (prog : List Instr) : List Instr :=
  let p := propagate prog
  let q := trim removable p.length p
  sweep removable q.length q

end Verif.Lang.Strength
