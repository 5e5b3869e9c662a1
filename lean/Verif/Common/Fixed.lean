import Mathlib.Algebra.Order.Group.Unbundled.Int
/-! # Fixed-width integers: `i64` with its two arithmetics (overflow panics / wraps) -/
namespace Verif

/-- The range of `i64`. -/
def InI64 (x : Int) : Prop := -9223372036854775808 ≤ x ∧ x ≤ 9223372036854775807

instance (x : Int) : Decidable (InI64 x) := by unfold InI64; infer_instance

/-- An `i64` result in a build with overflow checks: `none` is the panic. -/
def chk64 (x : Int) : Option Int := if InI64 x then some x else none

/-- An `i64` result in a build without overflow checks: two's complement wrap-around. -/
def wrap64 (x : Int) : Int := (x + 9223372036854775808) % 18446744073709551616 - 9223372036854775808

theorem wrap64_id {x : Int} (h : InI64 x) : wrap64 x = x := by unfold wrap64; unfold InI64 at h; omega

theorem wrap64_add_wrap (x y : Int) : wrap64 (wrap64 x + wrap64 y) = wrap64 (x + y) := by unfold wrap64; omega

theorem wrap64_add_left (x y : Int) : wrap64 (wrap64 x + y) = wrap64 (x + y) := by unfold wrap64; omega

theorem wrap64_add_right (x y : Int) : wrap64 (x + wrap64 y) = wrap64 (x + y) := by unfold wrap64; omega

theorem wrap64_sub_left (x y : Int) : wrap64 (wrap64 x - y) = wrap64 (x - y) := by unfold wrap64; omega

theorem chk64_some {x : Int} (h : InI64 x) : chk64 x = some x := if_pos h

end Verif
