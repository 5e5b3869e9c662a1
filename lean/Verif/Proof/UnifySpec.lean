import Verif.Proof.Cnf
/-!
# Specification of substitutions and instances of terms

Independent of the model of `unify.rs`.
-/

namespace Verif.Proof

mutual
/-- Specification: every variable, free or bound, replaced by `θ`. -/
def inst (θ : List Char → Term) : Term → Term
  | .var v => θ v
  | .bound v => θ v
  | .const c => .const c
  | .fn f as => .fn f (insts θ as)
  | .group as => .group (insts θ as)

/-- The same on lists. -/
def insts (θ : List Char → Term) : List Term → List Term
  | [] => []
  | t :: ts => inst θ t :: insts θ ts
end

mutual
/-- Specification: every name has one kind; `K v` says that `v` is a free variable, not a bound one. -/
def WK (K : List Char → Bool) : Term → Prop
  | .var v => K v = true
  | .bound v => K v = false
  | .const _ => True
  | .fn _ as => WKs K as
  | .group as => WKs K as

/-- The same on lists. -/
def WKs (K : List Char → Bool) : List Term → Prop
  | [] => True
  | t :: ts => WK K t ∧ WKs K ts
end

mutual
/-- Specification: free variables replaced at once, everything else left alone. -/
def fill (s : List Char → Option Term) : Term → Term
  | .var v => (s v).getD (.var v)
  | .bound v => .bound v
  | .const c => .const c
  | .fn f as => .fn f (fills s as)
  | .group as => .group (fills s as)

/-- The same on lists. -/
def fills (s : List Char → Option Term) : List Term → List Term
  | [] => []
  | t :: ts => fill s t :: fills s ts
end

mutual
/-- Specification: `v` is a free variable of the term. -/
def HasVar (v : List Char) : Term → Prop
  | .var w => w = v
  | .bound _ => False
  | .const _ => False
  | .fn _ as => HasVars v as
  | .group as => HasVars v as

/-- The same for some element. -/
def HasVars (v : List Char) : List Term → Prop
  | [] => False
  | t :: ts => HasVar v t ∨ HasVars v ts
end

mutual
/-- Specification: a term some of whose names are in `P`, free or bound. -/
def Mentions (P : List Char → Prop) : Term → Prop
  | .var w => P w
  | .bound w => P w
  | .const _ => False
  | .fn _ as => MentionsSome P as
  | .group as => MentionsSome P as

/-- The same for some element. -/
def MentionsSome (P : List Char → Prop) : List Term → Prop
  | [] => False
  | t :: ts => Mentions P t ∨ MentionsSome P ts
end

end Verif.Proof
