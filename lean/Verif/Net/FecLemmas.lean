import Verif.Net.FecMatrix
import Mathlib.Data.Finset.Card
/-! # Encoding and decoding shards -/
namespace Verif.Net
open Finset

theorem ofNat_inj {i j : Nat} (hi : i < 256) (hj : j < 256) (h : Byte.ofNat i = Byte.ofNat j) : i = j := by
  have := congrArg Byte.toNat h
  rwa [ofNat_toNat i hi, ofNat_toNat j hj] at this

theorem vander_get (n k i j : Nat) (hi : i < n) (hj : j < k) :
    mget (vander n k) i j = (Byte.ofNat i) ^ j := by
  unfold vander
  rw [mget_mapRange _ _ _ _ hi, rget_mapRange _ _ _ hj, gpow_eq]

theorem vander_length (n k : Nat) : (vander n k).length = n := by simp [vander]

theorem take_shape (n k : Nat) (h : k ≤ n) : Shape ((vander n k).take k) k k := by
  refine ⟨by simp [vander]; omega, fun row hrow => ?_⟩
  have := List.mem_of_mem_take hrow
  simp only [vander, List.mem_map] at this
  obtain ⟨i, -, rfl⟩ := this
  simp

theorem take_get (a : List (List Byte)) (k i j : Nat) (hi : i < k) : mget (a.take k) i j = mget a i j := by
  simp [mget, List.getD_eq_getElem?_getD, List.getElem?_take, hi]

theorem vandermonde_unit {k : Nat} (s : Fin k → Nat) (h256 : ∀ r, s r < 256) (hinj : Function.Injective s) :
    IsUnit (Matrix.vandermonde fun r => Byte.ofNat (s r)) := by
  rw [Matrix.isUnit_iff_isUnit_det, isUnit_iff_ne_zero, Matrix.det_vandermonde_ne_zero_iff]
  intro a b hab
  exact hinj (ofNat_inj (h256 a) (h256 b) hab)

theorem matmul_get (a b : List (List Byte)) (k i j : Nat) (hi : i < a.length) (hb : b.length = k)
    (hb0 : (b.getD 0 []).length = k) (hj : j < k) :
    mget (matmul a b) i j = ∑ t ∈ range k, mget a i t * mget b t j := by
  unfold matmul
  have : mget (a.map fun row => (List.range (b.getD 0 []).length).map fun j =>
      xorSum b.length fun t => gmul (rget row t) (mget b t j)) i j =
      rget ((List.range (b.getD 0 []).length).map fun j =>
        xorSum b.length fun t => gmul (rget (a.getD i []) t) (mget b t j)) j := by
    simp [mget, List.getD_eq_getElem?_getD, List.getElem?_eq_getElem hi]
  rw [this, hb0, rget_mapRange _ _ _ hj, xorSum_eq, hb]
  rfl

/-- What the encoding matrix is. -/
structure IsEnc (n k : Nat) (e inv : List (List Byte)) : Prop where
  eq : encodeMatrix n k = some e
  shape : Shape e n k
  get : ∀ i < n, ∀ j < k, mget e i j = ∑ t ∈ range k, (Byte.ofNat i) ^ t * mget inv t j
  unit : IsUnit (toM k (mget inv))
  top : ∀ i < k, ∀ j < k, mget e i j = if i = j then 1 else 0

theorem encodeMatrix_spec (n k : Nat) (hk : 1 ≤ k) (hkn : k ≤ n) (hn : n ≤ 256) : ∃ e inv, IsEnc n k e inv := by
  have hsh := take_shape n k hkn
  have htop : toM k (mget ((vander n k).take k)) = Matrix.vandermonde fun r : Fin k => Byte.ofNat r := by
    ext i j
    simp only [toM, Matrix.vandermonde_apply]
    rw [take_get _ _ _ _ i.isLt, vander_get _ _ _ _ (by omega) j.isLt]
  have hu : IsUnit (toM k (mget ((vander n k).take k))) := by
    rw [htop]
    exact vandermonde_unit (fun r : Fin k => (r : Nat)) (fun r => by omega) Fin.val_injective
  obtain ⟨inv, h1, h2, h3⟩ := invert_of_det hsh hu
  have h4 : toM k (mget ((vander n k).take k)) * toM k (mget inv) = 1 := mul_eq_one_comm.mp h3
  have hget : ∀ i < n, ∀ j < k, mget (matmul (vander n k) inv) i j =
      ∑ t ∈ range k, (Byte.ofNat i) ^ t * mget inv t j := by
    intro i hi j hj
    rw [matmul_get _ _ k i j (by rw [vander_length]; exact hi) h2.1 (h2.row hk) hj]
    apply Finset.sum_congr rfl
    intro t ht
    rw [vander_get _ _ _ _ hi (by simpa using ht)]
  refine ⟨matmul (vander n k) inv, inv, ?_, ?_, hget, ?_, ?_⟩
  · unfold encodeMatrix; rw [h1]
  · refine ⟨by simp [matmul, vander], fun row hrow => ?_⟩
    simp only [matmul, List.mem_map] at hrow
    obtain ⟨r, -, rfl⟩ := hrow
    rw [List.length_map, List.length_range, h2.row hk]
  · exact IsUnit.of_mul_eq_one _ h3
  · intro i hi j hj
    rw [hget i (by omega) j hj]
    have := congrFun (congrFun h4 ⟨i, hi⟩) ⟨j, hj⟩
    rw [Matrix.mul_apply] at this
    simp only [toM, Matrix.one_apply, Fin.mk.injEq] at this
    rw [← this, Finset.sum_range]
    apply Finset.sum_congr rfl
    intro t _
    rw [take_get _ _ _ _ hi, vander_get _ _ _ _ (by omega) t.isLt]

theorem rows_unit {n k e inv} (h : IsEnc n k e inv) (hn : n ≤ 256) (s : Fin k → Nat) (hs : ∀ r, s r < n)
    (hinj : Function.Injective s) : IsUnit (Matrix.of fun (r j : Fin k) => mget e (s r) j) := by
  have : (Matrix.of fun (r j : Fin k) => mget e (s r) j) =
      (Matrix.vandermonde fun r => Byte.ofNat (s r)) * toM k (mget inv) := by
    ext r j
    rw [Matrix.mul_apply, Matrix.of_apply, h.get _ (hs r) _ j.isLt, Finset.sum_range]
    rfl
  rw [this]
  exact (vandermonde_unit s (fun r => by have := hs r; omega) hinj).mul h.unit

/-! ### Choosing shards -/

theorem pick_spec (k n sl : Nat) : ∀ (hv acc : List (Nat × List Byte)),
    (∀ p ∈ hv, p.1 < n ∧ p.2.length = sl) → (acc.map Prod.fst).Nodup → acc.length < k →
    (∀ p ∈ pickShards k n sl acc hv, p ∈ acc ∨ p ∈ hv) ∧
    ((pickShards k n sl acc hv).map Prod.fst).Nodup ∧ (pickShards k n sl acc hv).length ≤ k ∧
    ((pickShards k n sl acc hv).length < k →
      ∀ p, p ∈ acc ∨ p ∈ hv → p.1 ∈ (pickShards k n sl acc hv).map Prod.fst) := by
  intro hv
  induction hv with
  | nil =>
    intro acc _ hnd hlt
    simp only [pickShards]
    refine ⟨fun p hp => Or.inl hp, hnd, by omega, fun _ p hp => ?_⟩
    rcases hp with hp | hp
    · exact List.mem_map_of_mem hp
    · simp at hp
  | cons q hv ih =>
    intro acc hgood hnd hlt
    obtain ⟨idx, shard⟩ := q
    have hq := hgood (idx, shard) (by simp)
    have hgood' : ∀ p ∈ hv, p.1 < n ∧ p.2.length = sl := fun p hp => hgood p (by simp [hp])
    rw [pickShards]
    by_cases hmem : idx ∈ acc.map Prod.fst
    · rw [if_pos (Or.inr (Or.inr hmem))]
      obtain ⟨h1, h2, h3, h4⟩ := ih acc hgood' hnd hlt
      refine ⟨fun p hp => ?_, h2, h3, fun hl p hp => ?_⟩
      · rcases h1 p hp with h | h
        · exact Or.inl h
        · exact Or.inr (by simp [h])
      · rcases hp with hp | hp
        · exact h4 hl p (Or.inl hp)
        · rcases List.mem_cons.mp hp with rfl | hp
          · obtain ⟨w, hw, he⟩ := List.mem_map.mp hmem
            rw [show (idx, shard).1 = w.1 from he.symm]
            exact h4 hl w (Or.inl hw)
          · exact h4 hl p (Or.inr hp)
    · rw [if_neg (by
        rintro (h | h | h)
        · exact absurd hq.1 (by omega)
        · exact h hq.2
        · exact hmem h)]
      simp only []
      have hnd' : ((acc ++ [(idx, shard)]).map Prod.fst).Nodup := by
        rw [List.map_append, List.nodup_append]
        refine ⟨hnd, by simp, ?_⟩
        intro a ha b hb
        simp only [List.map_cons, List.map_nil, List.mem_singleton] at hb
        subst hb
        intro hc; subst hc; exact hmem ha
      split
      · rename_i hk
        refine ⟨fun p hp => ?_, hnd', by omega, fun hl => by omega⟩
        rcases List.mem_append.mp hp with h | h
        · exact Or.inl h
        · exact Or.inr (by simp at h; simp [h])
      · rename_i hk
        have hll : (acc ++ [(idx, shard)]).length = acc.length + 1 := by simp
        obtain ⟨h1, h2, h3, h4⟩ := ih (acc ++ [(idx, shard)]) hgood' hnd' (by omega)
        refine ⟨fun p hp => ?_, h2, h3, fun hl p hp => ?_⟩
        · rcases h1 p hp with h | h
          · rcases List.mem_append.mp h with h | h
            · exact Or.inl h
            · exact Or.inr (by simp at h; simp [h])
          · exact Or.inr (by simp [h])
        · apply h4 hl p
          rcases hp with hp | hp
          · exact Or.inl (by simp [hp])
          · rcases List.mem_cons.mp hp with rfl | hp
            · exact Or.inl (by simp)
            · exact Or.inr hp

theorem pick_length (k n sl : Nat) (hk : 1 ≤ k) (hv : List (Nat × List Byte))
    (hgood : ∀ p ∈ hv, p.1 < n ∧ p.2.length = sl) :
    (pickShards k n sl [] hv).length = min k (hv.map Prod.fst).toFinset.card := by
  obtain ⟨h1, h2, h3, h4⟩ := pick_spec k n sl hv [] hgood (by simp) (by simp; omega)
  have hcard : ((pickShards k n sl [] hv).map Prod.fst).toFinset.card = (pickShards k n sl [] hv).length := by
    rw [List.toFinset_card_of_nodup h2, List.length_map]
  have hsub : ((pickShards k n sl [] hv).map Prod.fst).toFinset ⊆ (hv.map Prod.fst).toFinset := by
    intro x hx
    simp only [List.mem_toFinset, List.mem_map] at hx ⊢
    obtain ⟨p, hp, rfl⟩ := hx
    rcases h1 p hp with h | h
    · simp at h
    · exact ⟨p, h, rfl⟩
  have hle := Finset.card_le_card hsub
  by_cases hlt : (pickShards k n sl [] hv).length < k
  · have hsup : (hv.map Prod.fst).toFinset ⊆ ((pickShards k n sl [] hv).map Prod.fst).toFinset := by
      intro x hx
      simp only [List.mem_toFinset, List.mem_map] at hx
      obtain ⟨p, hp, rfl⟩ := hx
      rw [List.mem_toFinset]
      exact h4 hlt p (Or.inr hp)
    have := Finset.card_le_card hsup
    omega
  · omega

/-! ### The payload -/

theorem shardLen_pos (l k : Nat) : 1 ≤ shardLen l k := le_max_right _ _

theorem shardLen_covers (l k : Nat) (hk : 1 ≤ k) : l ≤ k * shardLen l k := by
  have h1 : (l + k - 1) / k ≤ shardLen l k := le_max_left _ _
  have h2 := Nat.div_add_mod (l + k - 1) k
  have h3 := Nat.mod_lt (l + k - 1) hk
  have h4 : k * ((l + k - 1) / k) ≤ k * shardLen l k := Nat.mul_le_mul_left _ h1
  omega

theorem padTo_length (d : List Byte) (n : Nat) (h : d.length ≤ n) : (padTo d n).length = n := by
  simp [padTo]; omega

theorem unflatten (p : List Byte) (sl : Nat) : ∀ k, p.length = k * sl →
    ((List.range k).map fun j => (List.range sl).map fun b => rget p (j * sl + b)).flatten = p := by
  intro k hl
  have key : ∀ j ≤ k, ((List.range j).map fun j => (List.range sl).map fun b => rget p (j * sl + b)).flatten
      = p.take (j * sl) := by
    intro j
    induction j with
    | zero => simp
    | succ j ih =>
      intro hj
      rw [List.range_succ, List.map_append, List.flatten_append, ih (by omega), Nat.succ_mul, List.take_add]
      congr 1
      simp only [List.map_cons, List.map_nil, List.flatten_cons, List.flatten_nil, List.append_nil]
      have hb : j * sl + sl ≤ p.length := by
        rw [hl, ← Nat.succ_mul]; exact Nat.mul_le_mul_right _ hj
      apply List.ext_getElem
      · simp; omega
      · intro b h1 h2
        have hbl : b < sl := by simpa using h1
        simp only [List.getElem_map, List.getElem_range, List.getElem_take, List.getElem_drop]
        rw [rget, List.getD_eq_getElem?_getD, List.getElem?_eq_getElem (by omega)]
        rfl
  rw [key k (le_refl _), ← hl, List.take_length]

/-- The shards `encode` makes. -/
def shardOf (e : List (List Byte)) (k sl : Nat) (padded : List Byte) (i : Nat) : List Byte :=
  (List.range sl).map fun b => xorSum k fun j => gmul (mget e i j) (rget padded (j * sl + b))

theorem fecEncode_spec (data : List Byte) (k n : Nat) (hk : 1 ≤ k) (hkn : k ≤ n) (hn : n ≤ 256) :
    ∃ e inv, IsEnc n k e inv ∧ fecEncode data k n = some (data.length, (List.range n).map
      (shardOf e k (shardLen data.length k) (padTo data (k * shardLen data.length k)))) := by
  obtain ⟨e, inv, he⟩ := encodeMatrix_spec n k hk hkn hn
  refine ⟨e, inv, he, ?_⟩
  unfold fecEncode
  rw [if_neg (by omega)]
  simp only [he.eq]
  rfl

theorem shardOf_length (e k sl padded i) : (shardOf e k sl padded i).length = sl := by simp [shardOf]

theorem fecDecode_spec {n k : Nat} {e inv : List (List Byte)} (he : IsEnc n k e inv) (hk : 1 ≤ k) (hkn : k ≤ n)
    (hn : n ≤ 256) (sl : Nat) (padded : List Byte) (hpl : padded.length = k * sl) (ol : Nat)
    (hv : List (Nat × List Byte)) (hgood : ∀ p ∈ hv, p.1 < n ∧ p.2 = shardOf e k sl padded p.1) :
    fecDecode ol k n hv = if k ≤ (hv.map Prod.fst).toFinset.card ∧ ol ≤ k * sl then some (padded.take ol) else none := by
  unfold fecDecode
  by_cases hemp : hv = []
  · subst hemp
    rw [if_pos (by simp)]
    rw [if_neg]
    simp; omega
  rw [if_neg (by rintro (h | h | h | h) <;> first | omega | exact hemp h)]
  simp only [he.eq]
  have hsl : (hv.headD (0, [])).2.length = sl := by
    cases hv with
    | nil => exact absurd rfl hemp
    | cons p hv =>
      rw [List.headD_cons, (hgood p (by simp)).2, shardOf_length]
  rw [hsl]
  have hgood2 : ∀ p ∈ hv, p.1 < n ∧ p.2.length = sl := fun p hp =>
    ⟨(hgood p hp).1, by rw [(hgood p hp).2, shardOf_length]⟩
  have hlen := pick_length k n sl hk hv hgood2
  obtain ⟨hm, hnd, -, -⟩ := pick_spec k n sl hv [] hgood2 (by simp) (by simp; omega)
  generalize pickShards k n sl [] hv = picked at hlen hm hnd
  by_cases hcard : k ≤ (hv.map Prod.fst).toFinset.card
  swap
  · rw [if_pos (by omega), if_neg (fun h => hcard h.1)]
  have hpk : picked.length = k := by omega
  rw [if_neg (by omega)]
  have hpick : ∀ r (hr : r < k), (picked.map fun p => e.getD p.1 []).getD r [] =
      e.getD (picked[r]'(by omega)).1 [] := by
    intro r hr
    rw [List.getD_eq_getElem?_getD, List.getElem?_map, List.getElem?_eq_getElem (by omega)]
    rfl
  have hpn : ∀ r (hr : r < k), (picked[r]'(by omega)).1 < n ∧
      (picked[r]'(by omega)).2 = shardOf e k sl padded (picked[r]'(by omega)).1 := by
    intro r hr
    rcases hm _ (List.getElem_mem (by omega : r < picked.length)) with h | h
    · simp at h
    · exact hgood _ h
  have hshape : Shape (picked.map fun p => e.getD p.1 []) k k := by
    apply shape_of_rows (by simp [hpk])
    intro r hr
    rw [hpick r hr]
    exact he.shape.row (hpn r hr).1
  have hunit : IsUnit (toM k (mget (picked.map fun p => e.getD p.1 []))) := by
    have := rows_unit he hn (fun r : Fin k => (picked[r.val]'(by omega)).1) (fun r => (hpn r r.isLt).1) (by
      intro a b hab
      have hi := List.nodup_iff_injective_getElem.mp hnd
      have h2 : (⟨a.val, by simp; omega⟩ : Fin (picked.map Prod.fst).length) = ⟨b.val, by simp; omega⟩ := by
        apply hi
        simpa using hab
      exact Fin.ext (by simpa using h2))
    have heq : toM k (mget (picked.map fun p => e.getD p.1 [])) =
        Matrix.of fun (r j : Fin k) => mget e (picked[r.val]'(by omega)).1 j := by
      ext r j
      simp only [toM, mget, Matrix.of_apply]
      rw [hpick r r.isLt]
    rw [heq]; exact this
  obtain ⟨minv, hm1, hm2, hm3⟩ := invert_of_det hshape hunit
  rw [hm1]
  simp only []
  have hdata : ((List.range k).map fun j => (List.range sl).map fun b =>
      xorSum k fun r => gmul (mget minv j r) (mget (picked.map Prod.snd) r b)).flatten = padded := by
    rw [← unflatten padded sl k hpl]
    congr 1
    apply List.map_congr_left
    intro j hj
    have hjk : j < k := by simpa using hj
    apply List.map_congr_left
    intro b hb
    have hbl : b < sl := by simpa using hb
    rw [xorSum_eq]
    have hval : ∀ r (hr : r < k), mget (picked.map Prod.snd) r b =
        ∑ t ∈ range k, mget (picked.map fun p => e.getD p.1 []) r t * rget padded (t * sl + b) := by
      intro r hr
      have h1 : mget (picked.map Prod.snd) r b = rget (picked[r]'(by omega)).2 b := by
        unfold mget
        rw [List.getD_eq_getElem?_getD, List.getElem?_map, List.getElem?_eq_getElem (by omega)]
        rfl
      rw [h1, (hpn r hr).2, shardOf, rget_mapRange _ _ _ hbl, xorSum_eq]
      apply Finset.sum_congr rfl
      intro t _
      rw [gmul_eq_mul]
      congr 1
      unfold mget
      rw [hpick r hr]
    have e1 : ∀ r ∈ range k, gmul (mget minv j r) (mget (picked.map Prod.snd) r b) =
        ∑ t ∈ range k, (mget minv j r * mget (picked.map fun p => e.getD p.1 []) r t) * rget padded (t * sl + b) := by
      intro r hr
      rw [hval r (by simpa using hr), gmul_eq_mul, Finset.mul_sum]
      apply Finset.sum_congr rfl
      intro t _
      ring
    rw [Finset.sum_congr rfl e1, Finset.sum_comm]
    have e2 : ∀ t ∈ range k, ∑ r ∈ range k, (mget minv j r * mget (picked.map fun p => e.getD p.1 []) r t) *
        rget padded (t * sl + b) = if j = t then rget padded (t * sl + b) else 0 := by
      intro t ht
      have htk : t < k := by simpa using ht
      rw [← Finset.sum_mul]
      have := congrFun (congrFun hm3 ⟨j, hjk⟩) ⟨t, htk⟩
      rw [Matrix.mul_apply] at this
      simp only [toM, Matrix.one_apply, Fin.mk.injEq] at this
      rw [Finset.sum_range, this]
      split <;> simp
    rw [Finset.sum_congr rfl e2, Finset.sum_ite_eq, if_pos (by simpa using hjk)]
  rw [hdata]
  by_cases hol : ol ≤ k * sl
  · rw [if_neg (by omega), if_pos ⟨hcard, hol⟩]
  · rw [if_pos (by omega), if_neg (fun h => hol h.2)]

theorem padTo_take (d : List Byte) (n : Nat) : (padTo d n).take d.length = d := by
  simp [padTo]

end Verif.Net
