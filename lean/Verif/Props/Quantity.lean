import Verif.Num.Units

/-!
# C111: physical quantities

## Specification

A quantity is a number, its size in the base units, together with ten exponents.  `denote` says what
each program over quantities means; nothing in it is taken from the interpreter.
-/
namespace Verif.Props
open Verif.Num

/-- The meaning of a quantity. -/
@[ext] structure Measure where
  si : ℚ
  exps : List ℚ

/-- The exponents of a unit, as numbers. -/
def unitExps (u : MUnit) : List ℚ := u.dimension.map fun x => (x.num : ℚ) / x.den

/-- The meaning of a program; `none` when it adds, subtracts or converts between different dimensions
or divides by nothing. -/
def denote : QExpr → Option Measure
  | .of v u => some ⟨v.toRat * u.scale.toRat + u.offset.toRat, unitExps u⟩
  | .convert e u =>
    (denote e).bind fun m => if m.exps = unitExps u then some m else none
  | .add a b =>
    (denote a).bind fun x => (denote b).bind fun y =>
      if x.exps = y.exps then some ⟨x.si + y.si, x.exps⟩ else none
  | .sub a b =>
    (denote a).bind fun x => (denote b).bind fun y =>
      if x.exps = y.exps then some ⟨x.si - y.si, x.exps⟩ else none
  | .mul a b =>
    (denote a).bind fun x => (denote b).bind fun y =>
      some ⟨x.si * y.si, List.zipWith (· + ·) x.exps y.exps⟩
  | .div a b =>
    (denote a).bind fun x => (denote b).bind fun y =>
      if y.si = 0 then none else some ⟨x.si / y.si, List.zipWith (· - ·) x.exps y.exps⟩
  | .times e k => (denote e).bind fun m => some ⟨m.si * k.toRat, m.exps⟩
  | .over e k => (denote e).bind fun m => if k.toRat = 0 then none else some ⟨m.si / k.toRat, m.exps⟩

/-- The unit a result is shown in: the one it was made with or last converted to, the left operand's
for a sum; `none` for a product or quotient, which are shown in base units. -/
def shown : QExpr → Option MUnit
  | .of _ u => some u
  | .convert _ u => some u
  | .add a _ => shown a
  | .sub a _ => shown a
  | .mul _ _ => none
  | .div _ _ => none
  | .times e _ => shown e
  | .over e _ => shown e

/-- The number shown for a size, in a unit. -/
def shownNumber (si : ℚ) : Option MUnit → ℚ
  | some u => (si - u.offset.toRat) / u.scale.toRat
  | none => si

/-- The symbol shown. -/
def shownSymbol : Option MUnit → List Char
  | some u => u.symbol
  | none => []

/-- A sensible unit: its numbers are in lowest terms, its scale is not zero and its exponents are whole
numbers of ordinary size. -/
structure GoodUnit (u : MUnit) : Prop where
  scale : u.scale.Wf
  offset : u.offset.Wf
  nonzero : u.scale.toRat ≠ 0
  whole : ∀ x ∈ u.dimension, x.den = 1 ∧ |x.num| < 2 ^ 31

/-- Every unit is sensible, every literal is in lowest terms, and no exponent of any intermediate
result reaches `2^31`. -/
def Fits : QExpr → Prop
  | .of v u => v.Wf ∧ GoodUnit u
  | .convert e u => Fits e ∧ GoodUnit u
  | .add a b => Fits a ∧ Fits b
  | .sub a b => Fits a ∧ Fits b
  | .mul a b => Fits a ∧ Fits b ∧ ∀ m, denote (.mul a b) = some m → ∀ x ∈ m.exps, |x| < 2 ^ 31
  | .div a b => Fits a ∧ Fits b ∧ ∀ m, denote (.div a b) = some m → ∀ x ∈ m.exps, |x| < 2 ^ 31
  | .times e k => Fits e ∧ k.Wf
  | .over e k => Fits e ∧ k.Wf

/-! ## Proof -/

/-- A value of the interpreter has the given meaning and is shown in the given unit. -/
private structure Means (v : QV) (m : Measure) (u : Option MUnit) : Prop where
  mag : v.q.magnitude.Wf
  si : v.q.magnitude.toRat = m.si
  dims : ∃ ns : List Int, (∀ n ∈ ns, |n| < 2 ^ 31) ∧ v.q.dimension = ns.map .int ∧
    m.exps = ns.map fun (n : Int) => (n : ℚ)
  same : v.unit.dimension = v.q.dimension
  scale : v.unit.scale.Wf
  offset : v.unit.offset.Wf
  nonzero : v.unit.scale.toRat ≠ 0
  number : ∀ si, shownNumber si u = (si - v.unit.offset.toRat) / v.unit.scale.toRat
  symbol : v.unit.symbol = shownSymbol u

private theorem unit_whole {u : MUnit} (h : GoodUnit u) :
    ∃ ns : List Int, (∀ n ∈ ns, |n| < 2 ^ 31) ∧ u.dimension = ns.map .int ∧
      unitExps u = ns.map fun (n : Int) => (n : ℚ) := by
  refine ⟨u.dimension.map Exp.num, ?_, ?_, ?_⟩
  · intro n hn
    obtain ⟨x, hx, rfl⟩ := List.mem_map.1 hn
    exact (h.whole x hx).2
  · rw [List.map_map]
    conv_lhs => rw [← List.map_id u.dimension]
    refine List.map_congr_left fun x hx => ?_
    obtain ⟨n, d⟩ := x
    have := (h.whole _ hx).1
    simp only at this
    subst this
    rfl
  · rw [List.map_map]
    unfold unitExps
    refine List.map_congr_left fun x hx => ?_
    rw [(h.whole x hx).1]
    simp

private theorem cast_inj {ms ns : List Int} :
    (ms.map fun (n : Int) => (n : ℚ)) = (ns.map fun (n : Int) => (n : ℚ)) ↔ ms = ns :=
  (List.map_injective_iff.2 fun a b h => by exact_mod_cast h).eq_iff

private theorem int_inj {ms ns : List Int} : ms.map Exp.int = ns.map Exp.int ↔ ms = ns :=
  (List.map_injective_iff.2 int_injective).eq_iff

private theorem cast_add (ms ns : List Int) :
    List.zipWith (· + ·) (ms.map fun (n : Int) => (n : ℚ)) (ns.map fun (n : Int) => (n : ℚ)) =
      (List.zipWith (· + ·) ms ns).map fun (n : Int) => (n : ℚ) := by
  induction ms generalizing ns with
  | nil => rfl
  | cons m ms ih => cases ns with
    | nil => rfl
    | cons n ns => simp [ih]

private theorem cast_sub (ms ns : List Int) :
    List.zipWith (· - ·) (ms.map fun (n : Int) => (n : ℚ)) (ns.map fun (n : Int) => (n : ℚ)) =
      (List.zipWith (· - ·) ms ns).map fun (n : Int) => (n : ℚ) := by
  induction ms generalizing ns with
  | nil => rfl
  | cons m ms ih => cases ns with
    | nil => rfl
    | cons n ns => simp [ih]

/-- The dimensions agree exactly when the exponents do. -/
private theorem Means.dims_iff {v w : QV} {m n : Measure} {a b : Option MUnit} (h : Means v m a)
    (k : Means w n b) : v.q.dimension = w.q.dimension ↔ m.exps = n.exps := by
  obtain ⟨ms, _, d1, e1⟩ := h.dims
  obtain ⟨ns, _, d2, e2⟩ := k.dims
  rw [d1, d2, e1, e2, cast_inj, int_inj]

private theorem means_si {q : Quantity} {m : Measure} (h1 : q.magnitude.Wf)
    (h2 : q.magnitude.toRat = m.si) {ns : List Int} (h3 : ∀ n ∈ ns, |n| < 2 ^ 31)
    (h4 : q.dimension = ns.map .int) (h5 : m.exps = ns.map fun (n : Int) => (n : ℚ)) :
    Means ⟨q, QV.siUnit q⟩ m none :=
  ⟨h1, h2, ⟨ns, h3, h4, h5⟩, rfl, Rational.wf_one, Rational.wf_zero,
    by simp [QV.siUnit, MUnit.linear], fun si => by simp [QV.siUnit, MUnit.linear, shownNumber], rfl⟩

/-- What `eval` must give for a meaning. -/
private def Good (r : Except QErr QV) (d : Option Measure) (u : Option MUnit) : Prop :=
  match d with
  | some m => ∃ v, r = .ok v ∧ Means v m u
  | none => ∃ e, r = .error e ∧ e ≠ .panic

private theorem good_eval : ∀ (e : QExpr), Fits e → Good e.eval (denote e) (shown e)
  | .of v u, h => by
    obtain ⟨hv, hu⟩ := h
    obtain ⟨ns, h1, h2, h3⟩ := unit_whole hu
    have m := Rational.mul_spec hv hu.scale
    have a := Rational.add_spec m.1 hu.offset
    refine ⟨QV.make v u, rfl, a.1, ?_, ⟨ns, h1, h2, h3⟩, rfl, hu.scale, hu.offset, hu.nonzero, ?_, rfl⟩
    · show ((v.mul u.scale).add u.offset).toRat = _
      rw [a.2, m.2]
    · intro si; rfl
  | .convert e u, h => by
    obtain ⟨he, hu⟩ := h
    have ih := good_eval e he
    unfold denote
    cases hd : denote e with
    | none =>
      rw [hd] at ih
      obtain ⟨x, hx, hx'⟩ := ih
      exact ⟨x, by simp [QExpr.eval, hx]; rfl, hx'⟩
    | some m =>
      rw [hd] at ih
      obtain ⟨v, hv, hm⟩ := ih
      obtain ⟨ns, h1, h2, h3⟩ := unit_whole hu
      obtain ⟨ms, d1, d2, d3⟩ := hm.dims
      have hiff : v.q.dimension = u.dimension ↔ m.exps = unitExps u := by
        rw [d2, h2, d3, h3, cast_inj, int_inj]
      have hev : (QExpr.convert e u).eval = v.convert u := by simp [QExpr.eval, hv]; rfl
      by_cases hc : m.exps = unitExps u
      · simp only [Option.bind_some, hc, if_true]
        refine ⟨⟨v.q, u⟩, ?_, hm.mag, hm.si, hm.dims, (hiff.2 hc).symm, hu.scale, hu.offset, hu.nonzero,
          fun _ => rfl, rfl⟩
        rw [hev]
        unfold QV.convert
        rw [if_neg (by simpa using hiff.2 hc)]
      · simp only [Option.bind_some, hc, if_false]
        refine ⟨.dims, ?_, by decide⟩
        rw [hev]
        unfold QV.convert
        rw [if_pos (fun h => hc (hiff.1 h))]
  | .add a b, h => by
    have ia := good_eval a h.1
    have ib := good_eval b h.2
    unfold denote
    cases da : denote a with
    | none =>
      rw [da] at ia
      obtain ⟨x, hx, hx'⟩ := ia
      exact ⟨x, by simp [QExpr.eval, hx]; rfl, hx'⟩
    | some m =>
      rw [da] at ia
      obtain ⟨v, hv, hm⟩ := ia
      cases db : denote b with
      | none =>
        rw [db] at ib
        obtain ⟨x, hx, hx'⟩ := ib
        exact ⟨x, by simp [QExpr.eval, hv, hx]; rfl, hx'⟩
      | some n =>
        rw [db] at ib
        obtain ⟨w, hw, hn⟩ := ib
        have hev : (QExpr.add a b).eval = v.add w := by simp [QExpr.eval, hv, hw]; rfl
        have hiff := hm.dims_iff hn
        simp only [Option.bind_some]
        by_cases hc : m.exps = n.exps
        · rw [if_pos hc]
          have s := Rational.add_spec hm.mag hn.mag
          refine ⟨⟨⟨v.q.magnitude.add w.q.magnitude, v.q.dimension⟩, v.unit⟩, ?_, s.1, ?_, hm.dims, hm.same,
            hm.scale, hm.offset, hm.nonzero, hm.number, hm.symbol⟩
          · rw [hev]
            unfold QV.add Quantity.add
            rw [if_neg (by simpa using hiff.2 hc)]
          · rw [s.2, hm.si, hn.si]
        · rw [if_neg hc]
          refine ⟨.dims, ?_, by decide⟩
          rw [hev]
          unfold QV.add Quantity.add
          rw [if_pos (fun h => hc (hiff.1 h))]
  | .sub a b, h => by
    have ia := good_eval a h.1
    have ib := good_eval b h.2
    unfold denote
    cases da : denote a with
    | none =>
      rw [da] at ia
      obtain ⟨x, hx, hx'⟩ := ia
      exact ⟨x, by simp [QExpr.eval, hx]; rfl, hx'⟩
    | some m =>
      rw [da] at ia
      obtain ⟨v, hv, hm⟩ := ia
      cases db : denote b with
      | none =>
        rw [db] at ib
        obtain ⟨x, hx, hx'⟩ := ib
        exact ⟨x, by simp [QExpr.eval, hv, hx]; rfl, hx'⟩
      | some n =>
        rw [db] at ib
        obtain ⟨w, hw, hn⟩ := ib
        have hev : (QExpr.sub a b).eval = v.sub w := by simp [QExpr.eval, hv, hw]; rfl
        have hiff := hm.dims_iff hn
        simp only [Option.bind_some]
        by_cases hc : m.exps = n.exps
        · rw [if_pos hc]
          have s := Rational.sub_spec hm.mag hn.mag
          refine ⟨⟨⟨v.q.magnitude.sub w.q.magnitude, v.q.dimension⟩, v.unit⟩, ?_, s.1, ?_, hm.dims, hm.same,
            hm.scale, hm.offset, hm.nonzero, hm.number, hm.symbol⟩
          · rw [hev]
            unfold QV.sub Quantity.sub
            rw [if_neg (by simpa using hiff.2 hc)]
          · rw [s.2, hm.si, hn.si]
        · rw [if_neg hc]
          refine ⟨.dims, ?_, by decide⟩
          rw [hev]
          unfold QV.sub Quantity.sub
          rw [if_pos (fun h => hc (hiff.1 h))]
  | .mul a b, h => by
    obtain ⟨ha, hb, hf⟩ := h
    have ia := good_eval a ha
    have ib := good_eval b hb
    unfold denote at hf ⊢
    cases da : denote a with
    | none =>
      rw [da] at ia
      obtain ⟨x, hx, hx'⟩ := ia
      exact ⟨x, by simp [QExpr.eval, hx]; rfl, hx'⟩
    | some m =>
      rw [da] at ia
      obtain ⟨v, hv, hm⟩ := ia
      cases db : denote b with
      | none =>
        rw [db] at ib
        obtain ⟨x, hx, hx'⟩ := ib
        exact ⟨x, by simp [QExpr.eval, hv, hx]; rfl, hx'⟩
      | some n =>
        rw [db] at ib
        obtain ⟨w, hw, hn⟩ := ib
        have hev : (QExpr.mul a b).eval = v.mul w := by simp [QExpr.eval, hv, hw]; rfl
        have hf' := hf _ (by rw [da, db]; rfl)
        obtain ⟨ms, m1, m2, m3⟩ := hm.dims
        obtain ⟨ns, n1, n2, n3⟩ := hn.dims
        simp only [m3, n3, cast_add] at hf'
        have hk : ∀ k ∈ List.zipWith (· + ·) ms ns, |k| < 2 ^ 31 := fun k hk => by
          have := hf' (k : ℚ) (List.mem_map.2 ⟨k, hk, rfl⟩)
          exact_mod_cast this
        have s := Rational.mul_spec hm.mag hn.mag
        refine ⟨_, ?_, means_si (q := ⟨v.q.magnitude.mul w.q.magnitude, _⟩) s.1 ?_ hk rfl ?_⟩
        · rw [hev]
          unfold QV.mul Quantity.mul
          rw [m2, n2, mul_int m1 n1 hk]
        · rw [s.2, hm.si, hn.si]
        · simp only [m3, n3, cast_add]
  | .div a b, h => by
    obtain ⟨ha, hb, hf⟩ := h
    have ia := good_eval a ha
    have ib := good_eval b hb
    unfold denote at hf ⊢
    cases da : denote a with
    | none =>
      rw [da] at ia
      obtain ⟨x, hx, hx'⟩ := ia
      exact ⟨x, by simp [QExpr.eval, hx]; rfl, hx'⟩
    | some m =>
      rw [da] at ia
      obtain ⟨v, hv, hm⟩ := ia
      cases db : denote b with
      | none =>
        rw [db] at ib
        obtain ⟨x, hx, hx'⟩ := ib
        exact ⟨x, by simp [QExpr.eval, hv, hx]; rfl, hx'⟩
      | some n =>
        rw [db] at ib
        obtain ⟨w, hw, hn⟩ := ib
        have hev : (QExpr.div a b).eval = v.div w := by simp [QExpr.eval, hv, hw]; rfl
        have s := Rational.div_spec hm.mag hn.mag
        rw [hn.si, hm.si] at s
        simp only [Option.bind_some]
        by_cases hz : n.si = 0
        · rw [if_pos hz]
          refine ⟨.zero, ?_, by decide⟩
          rw [hev]
          unfold QV.div Quantity.div
          rw [s.1 hz]
        · rw [if_neg hz]
          have hf' := hf _ (by rw [da, db]; simp only [Option.bind_some, if_neg hz]; rfl)
          obtain ⟨ms, m1, m2, m3⟩ := hm.dims
          obtain ⟨ns, n1, n2, n3⟩ := hn.dims
          simp only [m3, n3, cast_sub] at hf'
          have hk : ∀ k ∈ List.zipWith (· - ·) ms ns, |k| < 2 ^ 31 := fun k hk => by
            have := hf' (k : ℚ) (List.mem_map.2 ⟨k, hk, rfl⟩)
            exact_mod_cast this
          obtain ⟨r, r1, r2, r3⟩ := s.2 hz
          refine ⟨_, ?_, means_si (q := ⟨r, _⟩) r2 r3 hk rfl ?_⟩
          · rw [hev]
            unfold QV.div Quantity.div
            rw [m2, n2, r1, div_int m1 n1 hk]
          · simp only [m3, n3, cast_sub]
  | .times e k, h => by
    obtain ⟨he, hk⟩ := h
    have ih := good_eval e he
    unfold denote
    cases hd : denote e with
    | none =>
      rw [hd] at ih
      obtain ⟨x, hx, hx'⟩ := ih
      exact ⟨x, by simp [QExpr.eval, hx], hx'⟩
    | some m =>
      rw [hd] at ih
      obtain ⟨v, hv, hm⟩ := ih
      have s := Rational.mul_spec hm.mag hk
      exact ⟨v.times k, by simp [QExpr.eval, hv], s.1, by
        show (v.q.magnitude.mul k).toRat = _
        rw [s.2, hm.si], hm.dims, hm.same, hm.scale, hm.offset, hm.nonzero, hm.number, hm.symbol⟩
  | .over e k, h => by
    obtain ⟨he, hk⟩ := h
    have ih := good_eval e he
    unfold denote
    cases hd : denote e with
    | none =>
      rw [hd] at ih
      obtain ⟨x, hx, hx'⟩ := ih
      exact ⟨x, by simp [QExpr.eval, hx]; rfl, hx'⟩
    | some m =>
      rw [hd] at ih
      obtain ⟨v, hv, hm⟩ := ih
      have hev : (QExpr.over e k).eval = v.over k := by simp [QExpr.eval, hv]; rfl
      have s := Rational.div_spec hm.mag hk
      rw [hm.si] at s
      simp only [Option.bind_some]
      by_cases hz : k.toRat = 0
      · rw [if_pos hz]
        refine ⟨.zero, ?_, by decide⟩
        rw [hev]
        unfold QV.over
        rw [s.1 hz]
      · rw [if_neg hz]
        obtain ⟨r, r1, r2, r3⟩ := s.2 hz
        exact ⟨⟨⟨r, v.q.dimension⟩, v.unit⟩, by rw [hev]; unfold QV.over; rw [r1], r2, r3, hm.dims, hm.same,
          hm.scale, hm.offset, hm.nonzero, hm.number, hm.symbol⟩

/-! ## Theorems -/

/-- **C111 (exactness).**  A program over quantities whose exponents stay in range stops with an error
message exactly when it has no meaning, never panics, and otherwise yields a quantity of exactly the
right size and dimension, shown as exactly the right number of the right unit.  Missing: exponents that
are fractions (none arises from the catalogue) or reach `2^31`, where it is false. -/
theorem C111_exact_partial (e : QExpr) (h : Fits e) :
    (denote e = none → ∃ err, e.eval = .error err ∧ err ≠ .panic) ∧
    (∀ m, denote e = some m → ∃ v, e.eval = .ok v ∧ v.q.magnitude.toRat = m.si ∧
      v.q.dimension.map (fun x => (x.num : ℚ) / x.den) = m.exps ∧
      ∃ n, v.display = .ok (n, shownSymbol (shown e)) ∧ n.toRat = shownNumber m.si (shown e)) := by
  have g := good_eval e h
  constructor
  · intro hd
    rw [hd] at g
    exact g
  · intro m hd
    rw [hd] at g
    obtain ⟨v, hv, hm⟩ := g
    refine ⟨v, hv, hm.si, ?_, ?_⟩
    · obtain ⟨ns, _, d1, d2⟩ := hm.dims
      rw [d1, d2, List.map_map]
      refine List.map_congr_left fun n _ => ?_
      simp [Exp.int]
    · have s := Rational.sub_spec hm.mag hm.offset
      obtain ⟨r, r1, _, r3⟩ := (Rational.div_spec s.1 hm.scale).2 hm.nonzero
      refine ⟨r, ?_, ?_⟩
      · unfold QV.display Quantity.inUnit
        rw [if_neg (by simpa using hm.same.symm), r1]
        show Except.ok _ = _
        rw [hm.symbol]
      · rw [r3, s.2, hm.si, hm.number]

/-- **C111 (comparison).**  Quantities of one dimension are ordered as their sizes are, whatever their
units; they are equal exactly when their sizes and dimensions are; ordering quantities of different
dimensions is refused. -/
theorem C111_compare_partial (e f : QExpr) (he : Fits e) (hf : Fits f) (m n : Measure)
    (hm : denote e = some m) (hn : denote f = some n) :
    ∃ v w, e.eval = .ok v ∧ f.eval = .ok w ∧ (v.q = w.q ↔ m = n) ∧
      (m.exps = n.exps → v.cmp w = .ok (compare m.si n.si)) ∧
      (m.exps ≠ n.exps → v.cmp w = .error .dims) := by
  have g := good_eval e he
  have k := good_eval f hf
  rw [hm] at g
  rw [hn] at k
  obtain ⟨v, hv, hm'⟩ := g
  obtain ⟨w, hw, hn'⟩ := k
  have hiff := hm'.dims_iff hn'
  refine ⟨v, w, hv, hw, ?_, ?_, ?_⟩
  · constructor
    · intro h
      ext1
      · rw [← hm'.si, ← hn'.si, h]
      · exact hiff.1 (by rw [h])
    · intro h
      have h1 : v.q.magnitude = w.q.magnitude :=
        Rational.eq_of_toRat hm'.mag hn'.mag (by rw [hm'.si, hn'.si, h])
      have h2 := hiff.2 (by rw [h])
      obtain ⟨⟨_, _⟩, _⟩ := v
      obtain ⟨⟨_, _⟩, _⟩ := w
      simp only at h1 h2
      rw [h1, h2]
  · intro h
    unfold QV.cmp
    rw [if_neg (by simpa using hiff.2 h), Rational.cmp_spec hm'.mag hn'.mag, hm'.si, hn'.si]
  · intro h
    unfold QV.cmp
    rw [if_pos (fun h' => h (hiff.1 h'))]

/-- **C111 (the catalogue).**  Every unit of the catalogue is sensible and has a positive scale. -/
theorem C111_catalogue : ∀ u ∈ Units.catalogue, GoodUnit u ∧ 0 < u.scale.toRat := by
  have h : ∀ u ∈ Units.catalogue, (0 < u.scale.den ∧ u.scale.num.natAbs.gcd u.scale.den.natAbs = 1 ∧
      0 < u.offset.den ∧ u.offset.num.natAbs.gcd u.offset.den.natAbs = 1 ∧ 0 < u.scale.num) ∧
      ∀ x ∈ u.dimension, x.den = 1 ∧ |x.num| < 2 ^ 31 := by decide +kernel
  intro u hu
  obtain ⟨⟨h1, h2, h3, h4, h5⟩, h6⟩ := h u hu
  have hp : 0 < u.scale.toRat := by
    unfold Rational.toRat
    have a : (0:ℚ) < u.scale.num := by exact_mod_cast h5
    have b : (0:ℚ) < u.scale.den := by exact_mod_cast h1
    exact div_pos a b
  exact ⟨⟨⟨h1, h2⟩, ⟨h3, h4⟩, hp.ne', h6⟩, hp⟩

/-- What standards say of a unit: its name, the exponents of length, mass, time, current, temperature,
amount, luminous intensity, angle, solid angle and information, its size and zero in base units. -/
structure Standard where
  name : String
  exps : List ℚ
  scale : ℚ
  offset : ℚ

/-- Definitions from the international system of units, the international yard and pound, and the United
States gallon. -/
def standards : List Standard :=
  [⟨"metre", [1, 0, 0, 0, 0, 0, 0, 0, 0, 0], 1, 0⟩,
   ⟨"kilometre", [1, 0, 0, 0, 0, 0, 0, 0, 0, 0], 1000, 0⟩,
   ⟨"millimetre", [1, 0, 0, 0, 0, 0, 0, 0, 0, 0], 1 / 1000, 0⟩,
   ⟨"inch", [1, 0, 0, 0, 0, 0, 0, 0, 0, 0], 254 / 10000, 0⟩,
   ⟨"foot", [1, 0, 0, 0, 0, 0, 0, 0, 0, 0], 3048 / 10000, 0⟩,
   ⟨"yard", [1, 0, 0, 0, 0, 0, 0, 0, 0, 0], 9144 / 10000, 0⟩,
   ⟨"mile", [1, 0, 0, 0, 0, 0, 0, 0, 0, 0], 1609344 / 1000, 0⟩,
   ⟨"nautical mile", [1, 0, 0, 0, 0, 0, 0, 0, 0, 0], 1852, 0⟩,
   ⟨"light year", [1, 0, 0, 0, 0, 0, 0, 0, 0, 0], 299792458 * 31557600, 0⟩,
   ⟨"astronomical unit", [1, 0, 0, 0, 0, 0, 0, 0, 0, 0], 149597870700, 0⟩,
   ⟨"kilogram", [0, 1, 0, 0, 0, 0, 0, 0, 0, 0], 1, 0⟩,
   ⟨"gram", [0, 1, 0, 0, 0, 0, 0, 0, 0, 0], 1 / 1000, 0⟩,
   ⟨"tonne", [0, 1, 0, 0, 0, 0, 0, 0, 0, 0], 1000, 0⟩,
   ⟨"pound", [0, 1, 0, 0, 0, 0, 0, 0, 0, 0], 45359237 / 100000000, 0⟩,
   ⟨"ounce", [0, 1, 0, 0, 0, 0, 0, 0, 0, 0], 45359237 / 1600000000, 0⟩,
   ⟨"stone", [0, 1, 0, 0, 0, 0, 0, 0, 0, 0], 45359237 * 14 / 100000000, 0⟩,
   ⟨"carat", [0, 1, 0, 0, 0, 0, 0, 0, 0, 0], 2 / 10000, 0⟩,
   ⟨"second", [0, 0, 1, 0, 0, 0, 0, 0, 0, 0], 1, 0⟩,
   ⟨"minute", [0, 0, 1, 0, 0, 0, 0, 0, 0, 0], 60, 0⟩,
   ⟨"hour", [0, 0, 1, 0, 0, 0, 0, 0, 0, 0], 3600, 0⟩,
   ⟨"day", [0, 0, 1, 0, 0, 0, 0, 0, 0, 0], 86400, 0⟩,
   ⟨"week", [0, 0, 1, 0, 0, 0, 0, 0, 0, 0], 604800, 0⟩,
   ⟨"kelvin", [0, 0, 0, 0, 1, 0, 0, 0, 0, 0], 1, 0⟩,
   ⟨"celsius", [0, 0, 0, 0, 1, 0, 0, 0, 0, 0], 1, 27315 / 100⟩,
   ⟨"fahrenheit", [0, 0, 0, 0, 1, 0, 0, 0, 0, 0], 5 / 9, 45967 / 100 * (5 / 9)⟩,
   ⟨"litre", [3, 0, 0, 0, 0, 0, 0, 0, 0, 0], 1 / 1000, 0⟩,
   ⟨"gallon", [3, 0, 0, 0, 0, 0, 0, 0, 0, 0], 3785411784 / 1000000000000, 0⟩,
   ⟨"square metre", [2, 0, 0, 0, 0, 0, 0, 0, 0, 0], 1, 0⟩,
   ⟨"hectare", [2, 0, 0, 0, 0, 0, 0, 0, 0, 0], 10000, 0⟩,
   ⟨"acre", [2, 0, 0, 0, 0, 0, 0, 0, 0, 0], 40468564224 / 10000000, 0⟩,
   ⟨"m/s", [1, 0, -1, 0, 0, 0, 0, 0, 0, 0], 1, 0⟩,
   ⟨"km/h", [1, 0, -1, 0, 0, 0, 0, 0, 0, 0], 1000 / 3600, 0⟩,
   ⟨"miles per hour", [1, 0, -1, 0, 0, 0, 0, 0, 0, 0], 1609344 / 3600000, 0⟩,
   ⟨"knots", [1, 0, -1, 0, 0, 0, 0, 0, 0, 0], 1852 / 3600, 0⟩,
   ⟨"hz", [0, 0, -1, 0, 0, 0, 0, 0, 0, 0], 1, 0⟩,
   ⟨"joule", [2, 1, -2, 0, 0, 0, 0, 0, 0, 0], 1, 0⟩,
   ⟨"calorie", [2, 1, -2, 0, 0, 0, 0, 0, 0, 0], 4184 / 1000, 0⟩,
   ⟨"kwh", [2, 1, -2, 0, 0, 0, 0, 0, 0, 0], 3600000, 0⟩,
   ⟨"ev", [2, 1, -2, 0, 0, 0, 0, 0, 0, 0], 1602176634 / 10 ^ 28, 0⟩,
   ⟨"watt", [2, 1, -3, 0, 0, 0, 0, 0, 0, 0], 1, 0⟩,
   ⟨"pascal", [-1, 1, -2, 0, 0, 0, 0, 0, 0, 0], 1, 0⟩,
   ⟨"bar", [-1, 1, -2, 0, 0, 0, 0, 0, 0, 0], 100000, 0⟩,
   ⟨"atmosphere", [-1, 1, -2, 0, 0, 0, 0, 0, 0, 0], 101325, 0⟩,
   ⟨"bit", [0, 0, 0, 0, 0, 0, 0, 0, 0, 1], 1, 0⟩,
   ⟨"byte", [0, 0, 0, 0, 0, 0, 0, 0, 0, 1], 8, 0⟩,
   ⟨"mb", [0, 0, 0, 0, 0, 0, 0, 0, 0, 1], 8000000, 0⟩,
   ⟨"siemens", [-2, -1, 3, 2, 0, 0, 0, 0, 0, 0], 1, 0⟩,
   ⟨"microfarad", [-2, -1, 4, 2, 0, 0, 0, 0, 0, 0], 1 / 1000000, 0⟩,
   ⟨"wb", [2, 1, -2, -1, 0, 0, 0, 0, 0, 0], 1, 0⟩,
   ⟨"tesla", [0, 1, -2, -1, 0, 0, 0, 0, 0, 0], 1, 0⟩,
   ⟨"gray", [2, 0, -2, 0, 0, 0, 0, 0, 0, 0], 1, 0⟩,
   ⟨"sievert", [2, 0, -2, 0, 0, 0, 0, 0, 0, 0], 1, 0⟩,
   ⟨"becquerel", [0, 0, -1, 0, 0, 0, 0, 0, 0, 0], 1, 0⟩,
   ⟨"katal", [0, 0, -1, 0, 0, 1, 0, 0, 0, 0], 1, 0⟩,
   ⟨"percent", [0, 0, 0, 0, 0, 0, 0, 0, 0, 0], 1 / 100, 0⟩,
   ⟨"dozen", [0, 0, 0, 0, 0, 0, 0, 0, 0, 0], 12, 0⟩
]

/-- **C111 (standard units).**  Units found by name have the dimension, size and zero of the standards. -/
theorem C111_standards : ∀ e ∈ standards, ∃ u, Units.byName e.name.toList = some u ∧
    unitExps u = e.exps ∧ u.scale.toRat = e.scale ∧ u.offset.toRat = e.offset := by
  have h : ∀ e ∈ standards, ∃ u ∈ Units.byName e.name.toList,
      unitExps u = e.exps ∧ u.scale.toRat = e.scale ∧ u.offset.toRat = e.offset := by
    decide +kernel
  intro e he
  obtain ⟨u, h1, h2⟩ := h e he
  exact ⟨u, h1, h2⟩

/-- **C111 (conversion).**  A number of one unit shown in another is exactly the number the two units'
scales and offsets determine; if their dimensions differ the conversion is refused. -/
theorem C111_convert (v : Rational) (u w : MUnit) (hv : v.Wf) (hu : GoodUnit u) (hw : GoodUnit w) :
    (unitExps u = unitExps w → ∃ q n, (QExpr.convert (.of v u) w).eval = .ok q ∧
      q.display = .ok (n, w.symbol) ∧
      n.toRat = (v.toRat * u.scale.toRat + u.offset.toRat - w.offset.toRat) / w.scale.toRat) ∧
    (unitExps u ≠ unitExps w → (QExpr.convert (.of v u) w).eval = .error .dims) := by
  have g := C111_exact_partial (.convert (.of v u) w) ⟨⟨hv, hu⟩, hw⟩
  constructor
  · intro h
    obtain ⟨q, h1, _, _, n, h2, h3⟩ := g.2 _ (by simp only [denote, Option.bind_some, if_pos h]; rfl)
    exact ⟨q, n, h1, h2, h3⟩
  · intro h
    obtain ⟨ns, _, a1, a2⟩ := unit_whole hu
    obtain ⟨ms, _, b1, b2⟩ := unit_whole hw
    rw [a2, b2, Ne, cast_inj, ← int_inj, ← a1, ← b1] at h
    show QV.convert (QV.make v u) w = _
    exact if_pos h

/-- **C111 (round trip).**  Converting a quantity to another unit of its dimension and back shows the
number it was made with. -/
theorem C111_round_trip (v : Rational) (u w : MUnit) (hv : v.Wf) (hu : GoodUnit u) (hw : GoodUnit w)
    (h : unitExps u = unitExps w) :
    ∃ q n, (QExpr.convert (.convert (.of v u) w) u).eval = .ok q ∧ q.display = .ok (n, u.symbol) ∧
      n.toRat = v.toRat := by
  have g := C111_exact_partial (.convert (.convert (.of v u) w) u) ⟨⟨⟨hv, hu⟩, hw⟩, hu⟩
  obtain ⟨q, h1, _, _, n, h2, h3⟩ := g.2 _ (by simp only [denote, Option.bind_some, if_pos h, if_pos]; rfl)
  refine ⟨q, n, h1, h2, ?_⟩
  rw [h3]
  show (v.toRat * u.scale.toRat + u.offset.toRat - u.offset.toRat) / u.scale.toRat = _
  rw [add_sub_cancel_right, mul_div_cancel_right₀ _ hu.nonzero]

/-- **C111 (sums in a unit).**  In a unit whose zero is the base unit's zero, sums, differences and
multiples act on the numbers shown.  Missing: units with an offset (degrees Celsius and Fahrenheit),
where it is false. -/
theorem C111_linear_partial (a b k : Rational) (u : MUnit) (ha : a.Wf) (hb : b.Wf) (hk : k.Wf)
    (hu : GoodUnit u) (h0 : u.offset.toRat = 0) :
    (∃ q n, (QExpr.add (.of a u) (.of b u)).eval = .ok q ∧ q.display = .ok (n, u.symbol) ∧
      n.toRat = a.toRat + b.toRat) ∧
    (∃ q n, (QExpr.sub (.of a u) (.of b u)).eval = .ok q ∧ q.display = .ok (n, u.symbol) ∧
      n.toRat = a.toRat - b.toRat) ∧
    (∃ q n, (QExpr.times (.of a u) k).eval = .ok q ∧ q.display = .ok (n, u.symbol) ∧
      n.toRat = a.toRat * k.toRat) := by
  have hs := hu.nonzero
  refine ⟨?_, ?_, ?_⟩
  · obtain ⟨q, h1, _, _, n, h2, h3⟩ := (C111_exact_partial (.add (.of a u) (.of b u)) ⟨⟨ha, hu⟩, hb, hu⟩).2 _
      (by simp only [denote, Option.bind_some, if_pos]; rfl)
    refine ⟨q, n, h1, h2, ?_⟩
    rw [h3]
    simp only [shown, shownNumber, h0]
    field_simp
    ring
  · obtain ⟨q, h1, _, _, n, h2, h3⟩ := (C111_exact_partial (.sub (.of a u) (.of b u)) ⟨⟨ha, hu⟩, hb, hu⟩).2 _
      (by simp only [denote, Option.bind_some, if_pos]; rfl)
    refine ⟨q, n, h1, h2, ?_⟩
    rw [h3]
    simp only [shown, shownNumber, h0]
    field_simp
    ring
  · obtain ⟨q, h1, _, _, n, h2, h3⟩ := (C111_exact_partial (.times (.of a u) k) ⟨⟨ha, hu⟩, hk⟩).2 _
      (by simp only [denote, Option.bind_some]; rfl)
    refine ⟨q, n, h1, h2, ?_⟩
    rw [h3]
    simp only [shown, shownNumber, h0]
    field_simp
    ring

/-- **C111 (fractional exponents).**  The arithmetic of exponents, fractions included, is exact while
numerators and denominators are below `2^15`, and two exponents are the same pair exactly when they are
the same number.  Missing: larger fractions, whose products may wrap around. -/
theorem C111_exponents_partial (a b : Exp) (ha : a.Wf) (hb : b.Wf) (h1 : |a.num| < 2 ^ 15)
    (h2 : a.den < 2 ^ 15) (h3 : |b.num| < 2 ^ 15) (h4 : b.den < 2 ^ 15) (k : Int) (hk : |k| < 2 ^ 15) :
    (a = b ↔ (a.num : ℚ) / a.den = b.num / b.den) ∧
    (∃ r, a.add b = some r ∧ r.Wf ∧ (r.num : ℚ) / r.den = a.num / a.den + b.num / b.den) ∧
    (∃ r, a.sub b = some r ∧ r.Wf ∧ (r.num : ℚ) / r.den = a.num / a.den - b.num / b.den) ∧
    (∃ r, a.scale k = some r ∧ r.Wf ∧ (r.num : ℚ) / r.den = a.num / a.den * k) ∧
    (k ≠ 0 → ∃ r, a.divInt k = some r ∧ r.Wf ∧ (r.num : ℚ) / r.den = a.num / a.den / k) ∧
    (a.neg.Wf ∧ (a.neg.num : ℚ) / a.neg.den = -(a.num / a.den)) := by
  have pa := ha.pos
  have pb := hb.pos
  have bound : ∀ x y : Int, |x| < 2 ^ 15 → |y| < 2 ^ 15 → |x * y| ≤ 2 ^ 30 - 1 := by
    intro x y hx hy
    rw [abs_mul]
    have := mul_le_mul (Int.le_sub_one_of_lt hx) (Int.le_sub_one_of_lt hy) (abs_nonneg y) (by norm_num)
    linarith
  have da : |a.den| < 2 ^ 15 := by rwa [abs_of_pos pa]
  have db : |b.den| < 2 ^ 15 := by rwa [abs_of_pos pb]
  have e1 := bound _ _ h1 db
  have e2 := bound _ _ h3 da
  have e3 := bound _ _ da db
  have e4 := bound _ _ h1 hk
  have e5 := bound _ _ da hk
  have e6 := abs_add_le (a.num * b.den) (b.num * a.den)
  have e7 := abs_sub (a.num * b.den) (b.num * a.den)
  refine ⟨⟨fun h => by rw [h], Exp.eq_of_val ha hb⟩, ?_, ?_, ?_, ?_, ?_⟩
  · exact Exp.add_spec ha hb (by linarith) (by linarith) (by linarith) (by linarith)
  · exact Exp.sub_spec ha hb (by linarith) (by linarith) (by linarith) (by linarith)
  · exact Exp.scale_spec ha (by linarith)
  · exact fun h0 => Exp.divInt_spec ha h0 (by linarith)
  · exact Exp.neg_spec ha

/-! ### The best unit of a ladder -/

/-- The first number is at least as readable as the second: at least one and no larger, or, when the
second is below one, at least one or no smaller. -/
def Readable (m n : ℚ) : Prop :=
  (1 ≤ |n| → 1 ≤ |m| ∧ |m| ≤ |n|) ∧ (|n| < 1 → 1 ≤ |m| ∨ |n| ≤ |m|)

private theorem Readable.trans {a b c : ℚ} (h : Readable a b) (k : Readable b c) : Readable a c := by
  unfold Readable at *
  constructor
  · intro hc
    obtain ⟨k1, k2⟩ := k.1 hc
    obtain ⟨h1, h2⟩ := h.1 k1
    exact ⟨h1, h2.trans k2⟩
  · intro hc
    rcases k.2 hc with k1 | k1
    · exact .inl (h.1 k1).1
    · rcases lt_or_ge |b| 1 with hb | hb
      · rcases h.2 hb with h1 | h1
        · exact .inl h1
        · exact .inr (k1.trans h1)
      · exact .inl (h.1 hb).1

private theorem better_spec {m n : Rational} (hm : m.Wf) (hn : n.Wf) :
    if Quantity.better m n then Readable m.toRat n.toRat else Readable n.toRat m.toRat := by
  have am := Rational.abs_spec hm
  have an := Rational.abs_spec hn
  have c1 := Rational.cmp_spec am.1 Rational.wf_one
  have c2 := Rational.cmp_spec an.1 Rational.wf_one
  have c3 := Rational.cmp_spec am.1 an.1
  rw [am.2, Rational.toRat_one] at c1
  rw [an.2, Rational.toRat_one] at c2
  rw [am.2, an.2] at c3
  have l1 : (m.abs.cmp .one ≠ .lt) = (1 ≤ |m.toRat|) := by
    rw [c1]; simp only [ne_eq, compare_lt_iff_lt, not_lt]
  have l2 : (n.abs.cmp .one ≠ .lt) = (1 ≤ |n.toRat|) := by
    rw [c2]; simp only [ne_eq, compare_lt_iff_lt, not_lt]
  have l3 : (m.abs.cmp n.abs = .lt) = (|m.toRat| < |n.toRat|) := by rw [c3]; simp only [compare_lt_iff_lt]
  have l4 : (m.abs.cmp n.abs = .gt) = (|n.toRat| < |m.toRat|) := by rw [c3]; simp only [compare_gt_iff_gt]
  unfold Quantity.better
  simp only [l1, l2, l3, l4]
  unfold Readable
  generalize |m.toRat| = x
  generalize |n.toRat| = y
  by_cases hx : 1 ≤ x <;> by_cases hy : 1 ≤ y <;> simp only [hx, hy, decide_true, decide_false]
  · by_cases hxy : x < y <;> simp only [hxy, decide_true, decide_false, if_true, Bool.false_eq_true, if_false]
    · exact ⟨fun _ => ⟨trivial, hxy.le⟩, fun h => .inl trivial⟩
    · exact ⟨fun _ => ⟨trivial, not_lt.1 hxy⟩, fun h => .inl trivial⟩
  · exact ⟨fun h => h.elim, fun _ => .inl trivial⟩
  · simp only [Bool.false_eq_true, if_false]
    exact ⟨fun h => h.elim, fun _ => .inl trivial⟩
  · by_cases hxy : y < x <;> simp only [hxy, decide_true, decide_false, if_true, Bool.false_eq_true, if_false]
    · exact ⟨fun h => h.elim, fun _ => .inr hxy.le⟩
    · exact ⟨fun h => h.elim, fun _ => .inr (not_lt.1 hxy)⟩

/-- The number of a quantity in a unit. -/
private def numIn (q : Quantity) (u : MUnit) : ℚ := (q.magnitude.toRat - u.offset.toRat) / u.scale.toRat

private theorem bestLoop_spec (q : Quantity) (hq : q.magnitude.Wf) :
    ∀ (us : List MUnit) (done : List MUnit) (best : Option (Rational × MUnit)),
    (∀ u ∈ us, GoodUnit u) →
    (match best with
      | none => ∀ w ∈ done, w.dimension ≠ q.dimension
      | some (m, u) => u ∈ done ∧ u.dimension = q.dimension ∧ m.Wf ∧ m.toRat = numIn q u ∧
          ∀ w ∈ done, w.dimension = q.dimension → Readable m.toRat (numIn q w)) →
    (match Quantity.bestLoop q us best with
      | none => ∀ w ∈ done ++ us, w.dimension ≠ q.dimension
      | some (m, u) => u ∈ done ++ us ∧ u.dimension = q.dimension ∧ m.Wf ∧ m.toRat = numIn q u ∧
          ∀ w ∈ done ++ us, w.dimension = q.dimension → Readable m.toRat (numIn q w))
  | [], done, best, _, h => by simpa [Quantity.bestLoop] using h
  | u :: us, done, best, hg, h => by
    have hu := hg u (List.mem_cons_self)
    have hg' : ∀ w ∈ us, GoodUnit w := fun w hw => hg w (List.mem_cons_of_mem _ hw)
    rw [show done ++ u :: us = (done ++ [u]) ++ us by simp]
    rw [Quantity.bestLoop]
    by_cases hd : q.dimension = u.dimension
    · have s := Rational.sub_spec hq hu.offset
      obtain ⟨r, r1, r2, r3⟩ := (Rational.div_spec s.1 hu.scale).2 hu.nonzero
      rw [s.2] at r3
      have hin : q.inUnit u = some r := by
        unfold Quantity.inUnit; rw [if_neg (by simpa using hd), r1]
      rw [hin]
      cases best with
      | none =>
        refine bestLoop_spec q hq us (done ++ [u]) _ hg' ⟨by simp, hd.symm, r2, r3, ?_⟩
        intro w hw hw'
        rcases List.mem_append.1 hw with hw | hw
        · exact absurd hw' (h w hw)
        · rw [List.mem_singleton.1 hw]
          show Readable r.toRat (numIn q u)
          rw [show numIn q u = r.toRat from r3.symm]
          exact ⟨fun h => ⟨h, le_rfl⟩, fun _ => .inr le_rfl⟩
      | some p =>
        obtain ⟨bm, bu⟩ := p
        obtain ⟨h1, h2, h3, h4, h5⟩ := h
        have hb := better_spec r2 h3
        refine bestLoop_spec q hq us (done ++ [u]) _ hg' ?_
        by_cases hbt : Quantity.better r bm
        · simp only [hbt, if_true] at hb ⊢
          refine ⟨by simp, hd.symm, r2, r3, ?_⟩
          intro w hw hw'
          rcases List.mem_append.1 hw with hw | hw
          · exact hb.trans (h5 w hw hw')
          · rw [List.mem_singleton.1 hw, show numIn q u = r.toRat from r3.symm]
            exact ⟨fun h => ⟨h, le_rfl⟩, fun _ => .inr le_rfl⟩
        · simp only [hbt, if_false] at hb ⊢
          refine ⟨List.mem_append_left _ h1, h2, h3, h4, ?_⟩
          intro w hw hw'
          rcases List.mem_append.1 hw with hw | hw
          · exact h5 w hw hw'
          · rw [List.mem_singleton.1 hw, show numIn q u = r.toRat from r3.symm]
            exact hb
    · have hin : q.inUnit u = none := by unfold Quantity.inUnit; rw [if_pos hd]
      rw [hin]
      refine bestLoop_spec q hq us (done ++ [u]) best hg' ?_
      cases best with
      | none =>
        intro w hw
        rcases List.mem_append.1 hw with hw | hw
        · exact h w hw
        · rw [List.mem_singleton.1 hw]; exact fun h => hd h.symm
      | some p =>
        obtain ⟨bm, bu⟩ := p
        obtain ⟨h1, h2, h3, h4, h5⟩ := h
        refine ⟨List.mem_append_left _ h1, h2, h3, h4, ?_⟩
        intro w hw hw'
        rcases List.mem_append.1 hw with hw | hw
        · exact h5 w hw hw'
        · rw [List.mem_singleton.1 hw] at hw'; exact absurd hw'.symm hd

/-- **C111 (the best unit).**  Asking a ladder of units for the most readable one gives nothing exactly
when no unit has the right dimension; otherwise it gives a unit of the ladder and the exact number of
that unit, which makes the quantity again, and no unit of the ladder is more readable. -/
theorem C111_best (q : Quantity) (hq : q.magnitude.Wf) (ladder : List MUnit)
    (h : ∀ u ∈ ladder, GoodUnit u) :
    (q.inBestUnit ladder = none ↔ ∀ u ∈ ladder, u.dimension ≠ q.dimension) ∧
    ∀ m u, q.inBestUnit ladder = some (m, u) → u ∈ ladder ∧ Quantity.of m u = q ∧
      m.toRat = (q.magnitude.toRat - u.offset.toRat) / u.scale.toRat ∧
      ∀ w ∈ ladder, w.dimension = q.dimension →
        Readable m.toRat ((q.magnitude.toRat - w.offset.toRat) / w.scale.toRat) := by
  have key := bestLoop_spec q hq ladder [] none h (by simp)
  simp only [List.nil_append] at key
  change match q.inBestUnit ladder with | none => _ | some (m, u) => _ at key
  constructor
  · constructor
    · intro hn
      rw [hn] at key
      exact key
    · intro hall
      cases hb : q.inBestUnit ladder with
      | none => rfl
      | some p =>
        rw [hb] at key
        exact absurd key.2.1 (hall _ key.1)
  · intro m u hb
    rw [hb] at key
    obtain ⟨k1, k2, k3, k4, k5⟩ := key
    have hu := h u k1
    refine ⟨k1, ?_, k4, k5⟩
    have mm := Rational.mul_spec k3 hu.scale
    have aa := Rational.add_spec mm.1 hu.offset
    have : ((m.mul u.scale).add u.offset) = q.magnitude := by
      refine Rational.eq_of_toRat aa.1 hq ?_
      rw [aa.2, mm.2, k4]
      unfold numIn
      rw [div_mul_cancel₀ _ hu.nonzero, sub_add_cancel]
    unfold Quantity.of
    rw [this, k2]

/-! ### Concrete cases -/

open Units

private theorem good {u : MUnit} (h : u ∈ catalogue) : GoodUnit u := (C111_catalogue u h).1

/-- Five miles and twelve hundred metres an hour-and-a-half long: `(5 mi + 1200 m) / 90 min`. -/
private def sampleSpeed : QExpr :=
  .div (.add (.of (.ofInt 5) mileU) (.of (.ofInt 1200) metreU)) (.of (.ofInt 90) minuteU)

private theorem whole_small {u v : MUnit} (hu : u ∈ catalogue) (hv : v ∈ catalogue) :
    ∀ x ∈ List.zipWith (· - ·) (unitExps u) (unitExps v), |x| < 2 ^ 31 := by
  have h : ∀ w ∈ catalogue, ∀ x ∈ w.dimension, x.den = 1 ∧ |x.num| < 10 := by decide +kernel
  have h' : ∀ w ∈ catalogue, ∀ x ∈ unitExps w, |x| < 10 := by
    intro w hw x hx
    obtain ⟨y, hy, rfl⟩ := List.mem_map.1 hx
    have := h w hw y hy
    rw [this.1]
    simp only [Int.cast_one, div_one]
    exact_mod_cast this.2
  intro x hx
  obtain ⟨i, hi, rfl⟩ := List.getElem_of_mem hx
  rw [List.getElem_zipWith]
  have a := h' u hu _ (List.getElem_mem (by simp at hi; exact hi.1))
  have b := h' v hv _ (List.getElem_mem (by simp at hi; exact hi.2))
  rw [abs_lt] at a b ⊢
  constructor <;> linarith [a.1, a.2, b.1, b.2]

/-- The hypothesis of `C111_exact_partial` on `(5 mi + 1200 m) / 90 min`. -/
example : Fits sampleSpeed := by
  have hmi : mileU ∈ catalogue := by decide +kernel
  have hme : metreU ∈ catalogue := by decide +kernel
  have hmn : minuteU ∈ catalogue := by decide +kernel
  refine ⟨⟨⟨Rational.wf_ofInt _, good hmi⟩, Rational.wf_ofInt _, good hme⟩, ⟨Rational.wf_ofInt _, good hmn⟩, ?_⟩
  intro m hm
  have e1 : unitExps mileU = unitExps metreU := by
    unfold unitExps
    rw [show mileU.dimension = metreU.dimension from by decide +kernel]
  simp only [denote, Option.bind_some, e1, if_true] at hm
  split at hm
  · simp at hm
  · simp only [Option.some.injEq] at hm
    subst hm
    exact whole_small hme hmn

/-- The interpreter on it. -/
example : (sampleSpeed.eval.toOption.bind fun v => v.display.toOption) = some (⟨9632, 5625⟩, []) := by
  decide +kernel

/-- One mile is exactly 5280 feet. -/
example : ((QExpr.convert (.of (.ofInt 1) mileU) footU).eval.toOption.bind fun v => v.display.toOption) =
    some (⟨5280, 1⟩, ['f', 't']) := by decide +kernel

example : GoodUnit celsiusU ∧ GoodUnit fahrenheitU ∧ unitExps celsiusU = unitExps fahrenheitU := by
  refine ⟨good (by decide +kernel), good (by decide +kernel), ?_⟩
  unfold unitExps
  rw [show celsiusU.dimension = fahrenheitU.dimension from by decide +kernel]

/-- A ladder: 1500 metres are best shown as 1.5 kilometres. -/
example : Quantity.inBestUnit (.of (.ofInt 1500) metreU) [millimetreU, metreU, gramU, kilometreU] =
    some (⟨3, 2⟩, kilometreU) := by decide +kernel

example : (⟨1, 2⟩ : Exp).Wf := ⟨by decide, by decide, by decide, by decide⟩

/-! ### Where it fails -/

/-- The square of a quantity, as the interpreter computes it. -/
private def squared (r : Except QErr QV) : Except QErr QV := do let v ← r; v.mul v

/-- **C111 fails for large exponents.**  One metre squared thirty-two times over is `L^(2^32)`, but the
exponent wraps around: the result counts as a pure number and can be added to one. -/
theorem C111_overflow_fails :
    ∃ v w, squared^[32] (.ok (QV.make (.ofInt 1) metreU)) = .ok v ∧
      v.add (QV.make (.ofInt 1) eachU) = .ok w ∧ w.q.dimension = Dimension.dimensionless ∧
      w.q.magnitude = .ofInt 2 := by
  refine ⟨⟨⟨⟨1, 1⟩, Dimension.dimensionless⟩, .linear [] Dimension.dimensionless .one⟩,
    ⟨⟨⟨2, 1⟩, Dimension.dimensionless⟩, .linear [] Dimension.dimensionless .one⟩, ?_, ?_, ?_, ?_⟩
  · decide +kernel
  · decide +kernel
  · rfl
  · rfl

/-- **C111 fails for units with an offset.**  `30 °C - 20 °C` is shown as `-263.15 °C`, and
`20 °C + 5 °C` as `298.15 °C`. -/
theorem C111_affine_fails :
    ((QExpr.sub (.of (.ofInt 30) celsiusU) (.of (.ofInt 20) celsiusU)).eval.toOption.bind fun v =>
      v.display.toOption) = some (⟨-5263, 20⟩, ['°', 'C']) ∧
    ((QExpr.add (.of (.ofInt 20) celsiusU) (.of (.ofInt 5) celsiusU)).eval.toOption.bind fun v =>
      v.display.toOption) = some (⟨5963, 20⟩, ['°', 'C']) := by
  constructor <;> decide +kernel

/-- **C111 fails for symbols.**  The symbol shown for a unit, used as a unit's name, can name another
unit: five megametres are shown as `5 Mm`, and `Mm` is read as millimetres; the symbols of the tesla,
the farad, the coulomb, the henry and the siemens are read as tonnes, degrees Fahrenheit and Celsius,
hours and seconds. -/
theorem C111_symbol_fails :
    byName megametreU.symbol = some millimetreU ∧ byName teslaU.symbol = some tonneU ∧
    byName faradU.symbol = some fahrenheitU ∧ byName coulombU.symbol = some celsiusU ∧
    byName henryU.symbol = some hourU ∧ byName siemensU.symbol = some secondU ∧
    ∃ v, (QExpr.convert (.of (.ofInt 5000) kilometreU) megametreU).eval = .ok v ∧
      v.display = .ok (.ofInt 5, megametreU.symbol) := by
  refine ⟨?_, ?_, ?_, ?_, ?_, ?_, ?_⟩
  iterate 6 decide +kernel
  refine ⟨⟨.of (.ofInt 5000) kilometreU, megametreU⟩, ?_, ?_⟩ <;> decide +kernel

/-- **C111, summed up.**  It is not so that squaring a metre `n` times over always gives a quantity
whose exponent of length is `2^n`. -/
theorem C111_fails :
    ¬ ∀ (n : Nat) (v : QV), squared^[n] (.ok (QV.make (.ofInt 1) metreU)) = .ok v →
      ∃ x, v.q.dimension[0]? = some x ∧ (x.num : ℚ) / x.den = 2 ^ n := by
  intro h
  obtain ⟨x, h1, h2⟩ := h 32 ⟨⟨⟨1, 1⟩, Dimension.dimensionless⟩, .linear [] Dimension.dimensionless .one⟩
    (by decide +kernel)
  have : x = ⟨0, 1⟩ := by
    have : (Dimension.dimensionless)[0]? = some (⟨0, 1⟩ : Exp) := by decide +kernel
    exact Option.some.inj (h1.symm.trans this)
  subst this
  norm_num at h2

end Verif.Props
