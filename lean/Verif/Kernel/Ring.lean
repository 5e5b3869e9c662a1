import Verif.Common.BMap
import Verif.Kernel.Syntax
/-!
# The `ring` procedure

`/repo/crates/logicaffeine_kernel/src/ring.rs` and its callers in `reduction.rs`.  `BigInt` is modelled
by `Int` (C44 proves that `BigInt` computes in `ℤ`).
-/
namespace Verif.Kernel

/-- `Monomial` (`ring.rs` 48-53): exponents by variable. -/
abbrev Mono := BMap Int Int

/-- `Monomial::one` (`ring.rs` 57-61). -/
def Mono.one : Mono := []

/-- `Monomial::var` (`ring.rs` 64-68). -/
def Mono.var (i : Int) : Mono := [(i, 1)]

/-- `*entry = entry.add(exp)` for one variable (`ring.rs` 76-79). -/
def Mono.bump (m : Mono) (e : Int × Int) : Mono :=
  BMap.insert e.1 ((BMap.get? e.1 m).getD 0 + e.2) m

/-- `Monomial::mul` (`ring.rs` 74-81). -/
def Mono.mul (a b : Mono) : Mono := b.foldl Mono.bump a

/-- `Polynomial` (`ring.rs` 89-94): coefficients by monomial, in the derived order of monomials. -/
abbrev Poly := BMap Mono Int

namespace Poly

/-- `Polynomial::zero` (`ring.rs` 100-104). -/
def zero : Poly := []

/-- `Polynomial::constant` (`ring.rs` 109-117). -/
def constant (c : Int) : Poly := if c = 0 then zero else [(Mono.one, c)]

/-- `Polynomial::var` (`ring.rs` 120-124). -/
def var (i : Int) : Poly := [(Mono.var i, 1)]

/-- One term of the loop of `Polynomial::add` (`ring.rs` 129-135): the entry is removed when it
becomes zero. -/
def addTerm (p : Poly) (e : Mono × Int) : Poly :=
  if (BMap.get? e.1 p).getD 0 + e.2 = 0 then BMap.remove e.1 p
  else BMap.insert e.1 ((BMap.get? e.1 p).getD 0 + e.2) p

/-- `Polynomial::add` (`ring.rs` 127-137). -/
def add (p q : Poly) : Poly := q.foldl addTerm p

/-- `Polynomial::neg` (`ring.rs` 140-146): the new map has the same keys. -/
def neg (p : Poly) : Poly := p.map (fun e => (e.1, -e.2))

/-- `Polynomial::sub` (`ring.rs` 149-151). -/
def sub (p q : Poly) : Poly := add p (neg q)

/-- One product in `Polynomial::mul` (`ring.rs` 158-161): zero entries stay for now. -/
def mulTerm (p : Poly) (e : Mono × Int) : Poly :=
  BMap.insert e.1 ((BMap.get? e.1 p).getD 0 + e.2) p

/-- All products of one term of the left factor (`ring.rs` 157-162). -/
def mulRow (q : Poly) (acc : Poly) (e : Mono × Int) : Poly :=
  q.foldl (fun acc f => mulTerm acc (Mono.mul e.1 f.1, e.2 * f.2)) acc

/-- `Polynomial::mul` (`ring.rs` 154-167). -/
def mul (p q : Poly) : Poly := (p.foldl (mulRow q) zero).filter (fun e => decide (e.2 ≠ 0))

/-- `canonical_eq` (`ring.rs` 172-174). -/
def canonicalEq (p q : Poly) : Bool := decide (p = q)

end Poly

/-- The algebra of `ring::reify`. -/
def ringAlgebra : Algebra Poly where
  lit := Poly.constant
  var := Poly.var
  add := Poly.add
  sub := Poly.sub
  mul p q := some (Poly.mul p q)

/-- The test shared by `try_try_ring_reduce` (`reduction.rs` 2282-2317), which answers `DRingSolve goal`
when it succeeds, and by `try_dring_solve_conclude` (`reduction.rs` 2322-2349), which then concludes the
goal: the goal is an equation at `Int` or `Nat` whose sides have the same polynomial. -/
def ringAccepts (goal : Term) : Bool :=
  match extractEq goal with
  | none => false
  | some (ty, a, b) =>
    if isRingType ty then
      match reify ringAlgebra a Interner.new with
      | (none, _) => false
      | (some p, v) =>
        match reify ringAlgebra b v with
        | (none, _) => false
        | (some q, _) => Poly.canonicalEq p q
    else false

end Verif.Kernel
