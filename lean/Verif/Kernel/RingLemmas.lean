import Verif.Common.BMapSum
import Verif.Kernel.Ring
import Verif.Kernel.ReifyLemmas
import Mathlib.Algebra.MvPolynomial.Funext
/-! # The `ring` procedure: polynomials are polynomials -/
namespace Verif.Kernel
open MvPolynomial

/-- A monomial: exponents are positive. -/
def Mono.Good (m : Mono) : Prop := BMap.Sorted m ∧ ∀ e ∈ m, 0 < e.2

/-- The exponent of a variable. -/
def Mono.deg (m : Mono) (i : Int) : Int := (BMap.get? i m).getD 0

theorem Mono.deg_nonneg {m : Mono} (h : m.Good) (i : Int) : 0 ≤ m.deg i := by
  unfold Mono.deg
  cases hg : BMap.get? i m with
  | none => simp
  | some v => have := h.2 _ (BMap.mem_of_get? hg); simp at this ⊢; omega

theorem Mono.good_one : Mono.one.Good := ⟨BMap.sorted_nil, by simp [Mono.one]⟩
theorem Mono.good_var (i : Int) : (Mono.var i).Good :=
  ⟨by simp [Mono.var, BMap.Sorted], by simp [Mono.var]⟩

theorem Mono.good_bump {m : Mono} (h : m.Good) {e : Int × Int} (he : 0 < e.2) : (m.bump e).Good := by
  refine ⟨BMap.sorted_insert h.1, ?_⟩
  intro x hx
  rcases BMap.mem_insert hx with rfl | hx
  · have := Mono.deg_nonneg h e.1
    unfold Mono.deg at this
    simp only; omega
  · exact h.2 x hx

theorem Mono.good_mul {a b : Mono} (ha : a.Good) (hb : b.Good) : (a.mul b).Good := by
  unfold Mono.mul
  have hb2 := hb.2
  clear hb
  induction b generalizing a with
  | nil => exact ha
  | cons e t ih =>
    exact ih (Mono.good_bump ha (hb2 e (List.mem_cons_self ..)))
      (fun x hx => hb2 x (List.mem_cons_of_mem _ hx))

theorem Mono.deg_bump {m : Mono} (h : BMap.Sorted m) (e : Int × Int) (i : Int) :
    (m.bump e).deg i = m.deg i + if e.1 = i then e.2 else 0 := by
  unfold Mono.bump Mono.deg
  rw [BMap.get?_insert h]
  by_cases hi : e.1 = i
  · subst hi; simp
  · simp [hi]

theorem Mono.deg_fold {b : Mono} (hb : BMap.Sorted b) : ∀ {a : Mono}, BMap.Sorted a → ∀ i,
    Mono.deg (b.foldl Mono.bump a) i = a.deg i + b.deg i := by
  induction b with
  | nil => intro a _ i; simp [Mono.deg, BMap.get?]
  | cons e t ih =>
    intro a ha i
    have h2 := List.pairwise_cons.1 hb
    have hs : BMap.Sorted (a.bump e) := BMap.sorted_insert ha
    rw [List.foldl_cons, ih h2.2 hs, Mono.deg_bump ha]
    obtain ⟨k, v⟩ := e
    simp only [Mono.deg, BMap.get?]
    by_cases hi : k = i
    · subst hi
      rw [BMap.get?_eq_none_of_lt h2.1]; simp
    · simp [hi]

theorem Mono.deg_mul {a b : Mono} (ha : a.Good) (hb : b.Good) (i : Int) :
    (a.mul b).deg i = a.deg i + b.deg i := Mono.deg_fold hb.1 ha.1 i

theorem Mono.eq_of_deg {a b : Mono} (ha : a.Good) (hb : b.Good) (h : ∀ i, a.deg i = b.deg i) :
    a = b := by
  refine BMap.ext ha.1 hb.1 (fun i => ?_)
  have := h i
  unfold Mono.deg at this
  cases h1 : BMap.get? i a with
  | none =>
    cases h2 : BMap.get? i b with
    | none => rfl
    | some w =>
      have := hb.2 _ (BMap.mem_of_get? h2)
      simp_all
  | some v =>
    have hv := ha.2 _ (BMap.mem_of_get? h1)
    cases h2 : BMap.get? i b with
    | none => simp_all
    | some w => simp_all

/-- The exponents as a finitely supported function. -/
noncomputable def Mono.fs (m : Mono) : ℤ →₀ ℕ :=
  Finsupp.onFinset (m.map Prod.fst).toFinset (fun i => (m.deg i).toNat) (by
    intro i hi
    rw [List.mem_toFinset]
    by_contra hc
    apply hi
    have : BMap.get? i m = none := by
      cases hg : BMap.get? i m with
      | none => rfl
      | some v => exact absurd (List.mem_map_of_mem (f := Prod.fst) (BMap.mem_of_get? hg)) hc
    simp [Mono.deg, this])

@[simp] theorem Mono.fs_apply (m : Mono) (i : ℤ) : m.fs i = (m.deg i).toNat := rfl

theorem Mono.fs_one : Mono.one.fs = 0 := by ext i; simp [Mono.deg, Mono.one, BMap.get?]

theorem Mono.fs_var (i : Int) : (Mono.var i).fs = Finsupp.single i 1 := by
  ext j
  rw [Finsupp.single_apply]
  by_cases h : i = j <;> simp [Mono.deg, Mono.var, BMap.get?, h]

theorem Mono.fs_mul {a b : Mono} (ha : a.Good) (hb : b.Good) : (a.mul b).fs = a.fs + b.fs := by
  ext i
  simp only [Mono.fs_apply, Finsupp.add_apply, Mono.deg_mul ha hb]
  exact Int.toNat_add (Mono.deg_nonneg ha i) (Mono.deg_nonneg hb i)

theorem Mono.fs_inj {a b : Mono} (ha : a.Good) (hb : b.Good) (h : a.fs = b.fs) : a = b := by
  refine Mono.eq_of_deg ha hb (fun i => ?_)
  have h1 := DFunLike.congr_fun h i
  simp only [Mono.fs_apply] at h1
  have := Mono.deg_nonneg ha i
  have := Mono.deg_nonneg hb i
  omega

namespace Poly

/-- Sorted, with good monomials; zero coefficients allowed. -/
def Pre (p : Poly) : Prop := BMap.Sorted p ∧ ∀ e ∈ p, e.1.Good

/-- The canonical form. -/
def Good (p : Poly) : Prop := p.Pre ∧ ∀ e ∈ p, e.2 ≠ 0

/-- The polynomial that is meant. -/
noncomputable def mv (p : Poly) : MvPolynomial ℤ ℤ :=
  BMap.total (fun m c => monomial (Mono.fs m) c) p

theorem mv_bump {p : Poly} (hp : BMap.Sorted p) (m : Mono) (c : Int) :
    mv (BMap.insert m ((BMap.get? m p).getD 0 + c) p) = mv p + monomial m.fs c :=
  BMap.total_bump (G := MvPolynomial ℤ ℤ) _ (fun k => by simp) (fun k a b => by simp) hp

theorem pre_insert {p : Poly} (hp : p.Pre) {m : Mono} (hm : m.Good) (c : Int) :
    Pre (BMap.insert m c p) :=
  ⟨BMap.sorted_insert hp.1, fun e he => by
    rcases BMap.mem_insert he with rfl | he
    · exact hm
    · exact hp.2 e he⟩

theorem pre_filter {p : Poly} (hp : p.Pre) (q : Mono × Int → Bool) : Pre (p.filter q) :=
  ⟨BMap.sorted_filter hp.1, fun e he => hp.2 e (List.mem_filter.1 he).1⟩

theorem addTerm_spec {p : Poly} (hp : p.Good) {e : Mono × Int} (he : e.1.Good) :
    (addTerm p e).Good ∧ mv (addTerm p e) = mv p + monomial e.1.fs e.2 := by
  unfold addTerm
  split
  · rename_i hz
    refine ⟨⟨pre_filter hp.1 _, fun x hx => hp.2 x (List.mem_filter.1 hx).1⟩, ?_⟩
    have h := BMap.total_remove (G := MvPolynomial ℤ ℤ) (fun m c => monomial (Mono.fs m) c)
      (k := e.1) hp.1.1
    change mv _ + _ = mv p at h
    rw [← h]
    cases hg : BMap.get? e.1 p with
    | none =>
      rw [hg] at hz
      simp only [Option.getD_none, zero_add] at hz
      simp [BMap.part, hg, hz]
    | some v =>
      rw [hg] at hz
      simp only [Option.getD_some] at hz
      simp only [BMap.part, hg]
      rw [add_assoc, ← LinearMap.map_add, hz]; simp
  · rename_i hz
    refine ⟨⟨pre_insert hp.1 he _, fun x hx => ?_⟩, mv_bump hp.1.1 _ _⟩
    rcases BMap.mem_insert hx with rfl | hx
    · exact hz
    · exact hp.2 x hx

theorem add_spec {p q : Poly} (hp : p.Good) (hq : q.Pre) :
    (add p q).Good ∧ mv (add p q) = mv p + mv q := by
  have hq2 := hq.2
  clear hq
  unfold add
  induction q generalizing p with
  | nil => exact ⟨hp, by simp [mv]⟩
  | cons e t ih =>
    have h1 := addTerm_spec hp (hq2 e (List.mem_cons_self ..))
    have h2 := ih h1.1 (fun x hx => hq2 x (List.mem_cons_of_mem _ hx))
    refine ⟨h2.1, ?_⟩
    rw [List.foldl_cons, h2.2, h1.2]
    simp only [mv, BMap.total_cons]; abel

theorem neg_spec {p : Poly} (hp : p.Good) : (neg p).Good ∧ mv (neg p) = - mv p := by
  refine ⟨⟨⟨BMap.sorted_mapVal (f := fun _ c => -c) hp.1.1, ?_⟩, ?_⟩, ?_⟩
  · intro e he
    obtain ⟨x, hx, rfl⟩ := List.mem_map.1 he
    exact hp.1.2 x hx
  · intro e he
    obtain ⟨x, hx, rfl⟩ := List.mem_map.1 he
    have := hp.2 x hx
    simpa using this
  · clear hp
    induction p with
    | nil => simp [mv, neg]
    | cons e t ih =>
      simp only [mv, neg, List.map_cons, BMap.total_cons] at ih ⊢
      rw [ih, neg_add]; simp

theorem sub_spec {p q : Poly} (hp : p.Good) (hq : q.Good) :
    (sub p q).Good ∧ mv (sub p q) = mv p - mv q := by
  have h := add_spec hp (neg_spec hq).1.1
  refine ⟨h.1, ?_⟩
  unfold sub
  rw [h.2, (neg_spec hq).2, sub_eq_add_neg]

theorem mulRow_spec {q : Poly} (hq : q.Pre) {e : Mono × Int} (he : e.1.Good) {acc : Poly}
    (ha : acc.Pre) : (mulRow q acc e).Pre ∧
      mv (mulRow q acc e) = mv acc + monomial e.1.fs e.2 * mv q := by
  have hq2 := hq.2
  clear hq
  unfold mulRow
  induction q generalizing acc with
  | nil => exact ⟨ha, by simp [mv]⟩
  | cons f t ih =>
    have hf := hq2 f (List.mem_cons_self ..)
    have h1 : (mulTerm acc (Mono.mul e.1 f.1, e.2 * f.2)).Pre :=
      pre_insert ha (Mono.good_mul he hf) _
    have h2 := ih h1 (fun x hx => hq2 x (List.mem_cons_of_mem _ hx))
    refine ⟨h2.1, ?_⟩
    rw [List.foldl_cons, h2.2]
    have h3 : mv (mulTerm acc (Mono.mul e.1 f.1, e.2 * f.2)) =
        mv acc + monomial (Mono.mul e.1 f.1).fs (e.2 * f.2) := mv_bump ha.1 _ _
    rw [h3, Mono.fs_mul he hf, ← monomial_mul]
    simp only [mv, BMap.total_cons]
    rw [mul_add]; abel

theorem mulFold_spec {p q : Poly} (hp : p.Pre) (hq : q.Pre) : ∀ {acc : Poly}, acc.Pre →
    Pre (p.foldl (mulRow q) acc) ∧ mv (p.foldl (mulRow q) acc) = mv acc + mv p * mv q := by
  have hp2 := hp.2
  clear hp
  induction p with
  | nil => intro acc ha; exact ⟨ha, by simp [mv]⟩
  | cons e t ih =>
    intro acc ha
    have h1 := mulRow_spec hq (hp2 e (List.mem_cons_self ..)) ha
    have h2 := ih (fun x hx => hp2 x (List.mem_cons_of_mem _ hx)) h1.1
    refine ⟨h2.1, ?_⟩
    rw [List.foldl_cons, h2.2, h1.2]
    simp only [mv, BMap.total_cons]
    rw [add_mul]; abel

theorem mul_spec {p q : Poly} (hp : p.Good) (hq : q.Good) :
    (mul p q).Good ∧ mv (mul p q) = mv p * mv q := by
  have h := mulFold_spec hp.1 hq.1 (acc := zero) ⟨BMap.sorted_nil, by simp [zero]⟩
  refine ⟨⟨pre_filter h.1 _, fun e he => by simpa using (List.mem_filter.1 he).2⟩, ?_⟩
  have h2 : mv (mul p q) = mv (p.foldl (mulRow q) zero) :=
    BMap.total_filter (G := MvPolynomial ℤ ℤ) _ _ (by
      intro e _ hz
      have : e.2 = 0 := by simpa using hz
      rw [this]; simp)
  rw [h2, h.2]
  simp [mv, zero]

theorem coeff_mv {p : Poly} (hp : p.Pre) {m : Mono} (hm : m.Good) :
    coeff m.fs (mv p) = (BMap.get? m p).getD 0 := by
  have hs := hp.1
  have hp2 := hp.2
  clear hp
  induction p with
  | nil => simp [mv, BMap.get?]
  | cons e t ih =>
    have h2 := List.pairwise_cons.1 hs
    have ih := ih h2.2 (fun x hx => hp2 x (List.mem_cons_of_mem _ hx))
    obtain ⟨k, c⟩ := e
    simp only [mv, BMap.total_cons, coeff_add, coeff_monomial] at ih ⊢
    rw [ih]
    simp only [BMap.get?]
    by_cases h : k = m
    · subst h
      have : BMap.get? k t = none := BMap.get?_eq_none_of_lt h2.1
      simp [this]
    · have : k.fs ≠ m.fs := fun e => h (Mono.fs_inj (hp2 _ (List.mem_cons_self ..)) hm e)
      simp [h, this]

/-- The canonical form is canonical. -/
theorem eq_of_mv {p q : Poly} (hp : p.Good) (hq : q.Good) (h : mv p = mv q) : p = q := by
  refine BMap.ext hp.1.1 hq.1.1 (fun m => ?_)
  by_cases hm : m.Good
  · have h1 := coeff_mv hp.1 hm
    rw [h, coeff_mv hq.1 hm] at h1
    cases e1 : BMap.get? m p with
    | none =>
      cases e2 : BMap.get? m q with
      | none => rfl
      | some w =>
        have := hq.2 _ (BMap.mem_of_get? e2)
        rw [e1, e2] at h1; simp at h1 this; exact absurd h1 this
    | some v =>
      have hv := hp.2 _ (BMap.mem_of_get? e1)
      cases e2 : BMap.get? m q with
      | none => rw [e1, e2] at h1; simp at h1 hv; exact absurd h1.symm hv
      | some w => rw [e1, e2] at h1; simp at h1; rw [h1]
  · have h1 : BMap.get? m p = none := by
      cases e : BMap.get? m p with
      | none => rfl
      | some v => exact absurd (hp.1.2 _ (BMap.mem_of_get? e)) hm
    have h2 : BMap.get? m q = none := by
      cases e : BMap.get? m q with
      | none => rfl
      | some v => exact absurd (hq.1.2 _ (BMap.mem_of_get? e)) hm
    rw [h1, h2]

theorem constant_spec (c : Int) : (constant c).Good ∧ mv (constant c) = C c := by
  unfold constant
  split
  · rename_i h; subst h
    exact ⟨⟨⟨BMap.sorted_nil, by simp [zero]⟩, by simp [zero]⟩, by simp [mv, zero]⟩
  · rename_i h
    refine ⟨⟨⟨by simp [BMap.Sorted], ?_⟩, ?_⟩, ?_⟩
    · intro e he; rw [List.mem_singleton.1 he]; exact Mono.good_one
    · intro e he; rw [List.mem_singleton.1 he]; exact h
    · simp [mv, Mono.fs_one]

theorem var_spec (i : Int) : (var i).Good ∧ mv (var i) = X i := by
  refine ⟨⟨⟨by simp [var, BMap.Sorted], ?_⟩, ?_⟩, ?_⟩
  · intro e he; rw [List.mem_singleton.1 he]; exact Mono.good_var i
  · intro e he; rw [List.mem_singleton.1 he]; exact one_ne_zero
  · simp [mv, var, Mono.fs_var]; rfl

end Poly

/-- Reading into polynomials computes in every commutative ring. -/
theorem ring_interp (R : Type) [CommRing R] :
    Interp (R := R) ringAlgebra Poly.Good (fun τ p => aeval τ (Poly.mv p)) where
  lit n τ := ⟨(Poly.constant_spec n).1, by
    show aeval τ (Poly.mv (Poly.constant n)) = _
    rw [(Poly.constant_spec n).2]; simp⟩
  var i τ := ⟨(Poly.var_spec i).1, by
    show aeval τ (Poly.mv (Poly.var i)) = _
    rw [(Poly.var_spec i).2]; simp⟩
  add x y τ hx hy := ⟨(Poly.add_spec hx hy.1).1, by
    show aeval τ (Poly.mv (Poly.add x y)) = _
    rw [(Poly.add_spec hx hy.1).2]; simp⟩
  sub x y τ hx hy := ⟨(Poly.sub_spec hx hy).1, by
    show aeval τ (Poly.mv (Poly.sub x y)) = _
    rw [(Poly.sub_spec hx hy).2]; simp⟩
  mul x y z τ hx hy hz := by
    cases hz
    exact ⟨(Poly.mul_spec hx hy).1, by
      show aeval τ (Poly.mv (Poly.mul x y)) = _
      rw [(Poly.mul_spec hx hy).2]; simp⟩

theorem isRingType_iff {ty : Term} :
    isRingType ty = true ↔ ty = sName "Int" ∨ ty = sName "Nat" := by
  unfold isRingType
  rw [Bool.or_eq_true, decide_eq_true_eq, decide_eq_true_eq]
  constructor
  · rintro (h | h)
    · exact Or.inl (extractSname_some h)
    · exact Or.inr (extractSname_some h)
  · rintro (rfl | rfl) <;> simp

/-- The verdict, step by step. -/
theorem ringAccepts_iff {goal : Term} : ringAccepts goal = true ↔
    ∃ ty a b v v' p, goal = sApp (sApp (sApp (sName "Eq") ty) a) b ∧
      (ty = sName "Int" ∨ ty = sName "Nat") ∧
      Reads ringAlgebra a Interner.new p v ∧ Reads ringAlgebra b v p v' := by
  unfold ringAccepts
  constructor
  · intro h
    split at h
    · cases h
    · rename_i ty a b e
      split at h
      · rename_i ht
        split at h
        · cases h
        · rename_i p v ea
          split at h
          · cases h
          · rename_i q v' eb
            have hpq : p = q := by simpa [Poly.canonicalEq] using h
            subst hpq
            exact ⟨ty, a, b, v, v', p, extractEq_some e, isRingType_iff.1 ht, reads_of_reify a ea,
              reads_of_reify b eb⟩
      · cases h
  · rintro ⟨ty, a, b, v, v', p, rfl, ht, ha, hb⟩
    rw [extractEq_eq]
    simp only [isRingType_iff.2 ht, if_true, reify_of_reads ha, reify_of_reads hb, Poly.canonicalEq,
      decide_true]

end Verif.Kernel
