import Verif.Proof.UnifyExpr
import Verif.Proof.DiscTree
/-!
# Specification of retrieval

A pattern may match a query if the two agree wherever neither has a variable or an opaque part.
Independent of keys and tries.
-/

namespace Verif.Proof

mutual
/-- Specification: the terms agree outside variables. -/
def AlignT : Term → Term → Prop
  | .var _, _ => True
  | _, .var _ => True
  | .const a, .const b => a = b
  | .bound a, .bound b => a = b
  | .fn f as, .fn g bs => f = g ∧ AlignTs as bs
  | .group as, .group bs => AlignTs as bs
  | _, _ => False

/-- The same on lists of one length. -/
def AlignTs : List Term → List Term → Prop
  | [], [] => True
  | a :: as, b :: bs => AlignT a b ∧ AlignTs as bs
  | _, _ => False
end

/-- Specification: temporal operators and binders are opaque. -/
def Opaque : QExpr → Prop
  | .pred _ _ _ => False
  | .ident _ _ => False
  | .atom _ => False
  | .bin (.temporal _) _ _ => True
  | .bin _ _ _ => False
  | .un (.temporal _) _ => True
  | .un .not _ => False
  | .quant _ _ _ => True

/-- Specification: the formulas agree outside variables and opaque parts; worlds are ignored. -/
def AlignE : QExpr → QExpr → Prop
  | .pred p as _, e => Opaque e ∨ ∃ bs w, e = .pred p bs w ∧ AlignTs as bs
  | .ident a b, e => Opaque e ∨ ∃ c d, e = .ident c d ∧ AlignT a c ∧ AlignT b d
  | .atom p, e => Opaque e ∨ e = .atom p
  | .bin op a b, e => Opaque (.bin op a b) ∨ Opaque e ∨ ∃ c d, e = .bin op c d ∧ AlignE a c ∧ AlignE b d
  | .un op a, e => Opaque (.un op a) ∨ Opaque e ∨ ∃ c, e = .un op c ∧ AlignE a c
  | .quant _ _ _, _ => True

/-- Specification: a term and a formula agree only where one of them is opaque as a whole. -/
def Align : Pat → Pat → Prop
  | .term a, .term b => AlignT a b
  | .expr a, .expr b => AlignE a b
  | .term a, .expr b => (∃ v, a = .var v) ∨ Opaque b
  | .expr a, .term b => Opaque a ∨ ∃ v, b = .var v

end Verif.Proof
