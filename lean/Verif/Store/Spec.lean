import Verif.Store.Node
/-! # What durability means, without the journal -/
namespace Verif.Store
variable {T : Type}

/-- `b` is a later state than `a`: merging it into anything equivalent to `a` gives `b`.  This is what
`Merge` promises for a state reached from `a` by an operation of a CRDT. -/
def Grows (merge : T → T → T) (Same : T → T → Prop) (a b : T) : Prop :=
  ∀ r, Same r a → Same (merge r b) b

/-- The encoding of an operation fits in the journal (`u32` length) and decodes to itself. -/
def Fits (c : Codec T) (op : Op T) : Prop := c.de (c.ser op) = some op ∧ (c.ser op).length < 2 ^ 32

/-- The states a history goes through, as the program sees them: an acknowledged mutation changes the
state by `f`, and everything else leaves it alone — except that a crash inside a mutation may or may
not have kept that mutation.  `Recovers Same s evs t`: `t` is an allowed state after the history. -/
inductive Recovers (Same : T → T → Prop) : T → List (Ev T) → T → Prop
  | nil {s t} : Same s t → Recovers Same s [] t
  | mutate {s s' f es t} : Same s s' → Recovers Same (f s') es t → Recovers Same s (.mutate f :: es) t
  | compact {s es t} : Recovers Same s es t → Recovers Same s (.compact :: es) t
  | restart {s d es t} : Recovers Same s es t → Recovers Same s (.restart d :: es) t
  | crashLost {s f k d es t} : Recovers Same s es t → Recovers Same s (.crashMutate f k d :: es) t
  | crashKept {s s' f k d es t} : Same s s' → Recovers Same (f s') es t →
      Recovers Same s (.crashMutate f k d :: es) t
  | crashCompact {s r k d es t} : Recovers Same s es t → Recovers Same s (.crashCompact r k d :: es) t

/-- What an event needs of the value type: a mutation moves forward, the state written can be encoded,
and a default drawn at mount time is equivalent to the first one. -/
def EvOk (c : Codec T) (merge : T → T → T) (Same : T → T → Prop) (d0 : T) (x : Node T) : Ev T → Prop
  | .mutate f => Grows merge Same x.mem (f x.mem) ∧ Fits c (.delta (f x.mem))
  | .compact => Fits c (.snapshot x.mem)
  | .restart d => Same d d0
  | .crashMutate f _ d => Grows merge Same x.mem (f x.mem) ∧ Fits c (.delta (f x.mem)) ∧ Same d d0
  | .crashCompact _ _ d => Fits c (.snapshot x.mem) ∧ Same d d0

/-- Every event of the history meets `EvOk` when its turn comes. -/
def Lawful (c : Codec T) (merge : T → T → T) (Same : T → T → Prop) (d0 : T) : Node T → List (Ev T) → Prop
  | _, [] => True
  | x, e :: es => EvOk c merge Same d0 x e ∧
      ∀ y, x.step c merge e = .ok y → Lawful c merge Same d0 y es

/-- No append follows an append that was cut off, unless a compaction rewrote the journal in between. -/
def tornFree : Bool → List (Ev T) → Prop
  | _, [] => True
  | torn, .mutate _ :: es => torn = false ∧ tornFree false es
  | _, .compact :: es => tornFree false es
  | torn, .restart _ :: es => tornFree torn es
  | torn, .crashMutate _ _ _ :: es => torn = false ∧ tornFree true es
  | torn, .crashCompact renamed _ _ :: es => tornFree (torn && !renamed) es

/-- No crash cuts an append off. -/
def noCut (es : List (Ev T)) : Prop := ∀ f k d, .crashMutate f k d ∉ es

/-- A process started in an empty directory. -/
def Node.fresh (d0 : T) : Node T := ⟨d0, 0, none, none⟩

end Verif.Store
