import Verif.Num.UuidLemmas
import Mathlib.Data.List.Induction

/-! # More lemmas on the model of UUIDs: whole texts, batches, stamping -/
namespace Verif.Num.Uuid

/-- The digits of a canonical text. -/
def digitsOf (t : List Nat) : List Nat :=
  t.take 8 ++ (t.drop 9).take 4 ++ (t.drop 14).take 4 ++ (t.drop 19).take 4 ++ t.drop 24

theorem as_range {t : List Nat} {n : Nat} (h : t.length = n) : t = (List.range n).map fun i => t.getD i 0 := by
  apply List.ext_getElem
  · simp [h]
  · intro i h1 h2
    simp [List.getD_eq_getElem?_getD, h1]

theorem digitsOf_eq {t : List Nat} (h : t.length = 36) :
    digitsOf t = [0, 1, 2, 3, 4, 5, 6, 7, 9, 10, 11, 12, 14, 15, 16, 17, 19, 20, 21, 22, 24, 25, 26, 27, 28, 29,
      30, 31, 32, 33, 34, 35].map fun i => t.getD i 0 := by
  conv_lhs => rw [as_range h]
  generalize (fun i => t.getD i 0) = g
  rfl

/-- Characters paired into bytes. -/
def pairUp : List Nat → List Nat
  | a :: b :: r => (nibLane a * 16 + nibLane b) :: pairUp r
  | _ => []

theorem decodePairs_eq : ∀ (ds : List Nat), (∀ x ∈ ds, x < 256) → ds.length % 2 = 0 →
    decodePairs ds = if ∀ x ∈ ds, isHex x = true then some (pairUp ds) else none
  | [], _, _ => by simp [decodePairs, pairUp]
  | [a], _, h => by simp at h
  | a :: b :: r, hb, hl => by
    have ih := decodePairs_eq r (fun x hx => hb x (by simp [hx])) (by simp at hl; omega)
    have ha := hexDecode_hex a (hb a (by simp))
    have hb' := hexDecode_hex b (hb b (by simp))
    rw [decodePairs, ih]
    cases h1 : isHex a
    · simp [(ha.2.1 h1).2, h1]
    · cases h2 : isHex b
      · simp [(ha.1 h1).2.2.2, (hb'.2.1 h2).2, h1, h2]
      · rw [(ha.1 h1).2.2.2, (hb'.1 h2).2.2.2]
        by_cases h3 : ∀ x ∈ r, isHex x = true
        · rw [if_pos h3, if_pos (by simp [h1, h2]; exact h3)]
          simp only [Option.bind_eq_bind, Option.bind_some, pairUp]
          rw [pack _ _ (ha.1 h1).2.1 (hb'.1 h2).2.1]
          rfl
        · rw [if_neg h3, if_neg (by simp [h1, h2]; simpa using h3)]
          rfl

theorem decodeScalar_digits {t : List Nat} (h : t.length = 36) (hb : ∀ x ∈ t, x < 256) :
    decodeScalar t = decodePairs (digitsOf t) := by
  have hg : ∀ i, t.getD i 0 < 256 := by
    intro i
    rw [List.getD_eq_getElem?_getD]
    cases hi : t[i]? with
    | none => simp
    | some x => exact hb x (List.mem_of_getElem? hi)
  rw [decodeScalar_eq t hg, digitsOf_eq h]
  generalize hgen : (fun i => t.getD i 0) = g at *
  have hg' : ∀ i, g i < 256 := by intro i; rw [← hgen]; exact hg i
  rw [decodePairs_eq _ (by intro x hx; obtain ⟨i, _, rfl⟩ := List.mem_map.1 hx; exact hg' i) (by simp)]
  have e : (∀ p ∈ pairs, isHex (t.getD p 0) = true ∧ isHex (t.getD (p + 1) 0) = true) ↔
      ∀ x ∈ [0, 1, 2, 3, 4, 5, 6, 7, 9, 10, 11, 12, 14, 15, 16, 17, 19, 20, 21, 22, 24, 25, 26, 27, 28, 29,
      30, 31, 32, 33, 34, 35].map g, isHex x = true := by
    have h' : ∀ i, t.getD i 0 = g i := fun i => by rw [← hgen]
    simp only [h', pairs, List.map_cons, List.map_nil, List.forall_mem_cons, List.not_mem_nil, false_implies,
      implies_true, and_true, Nat.reduceAdd, Nat.zero_add, and_assoc]
  by_cases hc : ∀ p ∈ pairs, isHex (t.getD p 0) = true ∧ isHex (t.getD (p + 1) 0) = true
  · rw [if_pos hc, if_pos (e.1 hc)]
    rfl
  · rw [if_neg hc, if_neg (fun h => hc (e.2 h))]

theorem collect_seg : ∀ (seg : List Nat) (i : Nat) (rest hex : List Nat),
    (∀ j, i ≤ j → j < i + seg.length → ¬ (j = 8 ∨ j = 13 ∨ j = 18 ∨ j = 23)) → hex.length + seg.length ≤ 32 →
    collect i (seg ++ rest) hex = collect (i + seg.length) rest (hex ++ seg)
  | [], i, rest, hex, _, _ => by simp
  | c :: seg, i, rest, hex, h1, h2 => by
    have ih := collect_seg seg (i + 1) rest (hex ++ [c])
      (fun j a b => h1 j (by omega) (by simp only [List.length_cons]; omega)) (by simp at h2 ⊢; omega)
    rw [List.cons_append, collect, if_neg (h1 i (le_refl _) (by simp)), if_neg (by simp at h2; omega), ih]
    simp only [List.append_assoc, List.singleton_append, List.length_cons]
    rw [show i + 1 + seg.length = i + (seg.length + 1) by omega]

theorem collect_hyphen (i c : Nat) (rest hex : List Nat) (h : i = 8 ∨ i = 13 ∨ i = 18 ∨ i = 23) :
    collect i (c :: rest) hex = if c = 45 then collect (i + 1) rest hex else none := by
  rw [collect, if_pos h]
  by_cases hc : c = 45 <;> simp [hc]

theorem collect_eq {t : List Nat} (h : t.length = 36) :
    collect 0 t [] = if hyphens t then some (digitsOf t) else none := by
  have hs : t = t.take 8 ++ (t.getD 8 0 :: ((t.drop 9).take 4 ++ (t.getD 13 0 :: ((t.drop 14).take 4 ++
      (t.getD 18 0 :: ((t.drop 19).take 4 ++ (t.getD 23 0 :: (t.drop 24 ++ [])))))))) := by
    conv_lhs => rw [as_range h]
    conv_rhs => rw [as_range h]
    generalize (fun i => t.getD i 0) = g
    rfl
  conv_lhs => rw [hs]
  rw [collect_seg _ 0 _ _ (by simp [h]; omega) (by simp [h])]
  rw [show 0 + (t.take 8).length = 8 by simp [h], collect_hyphen _ _ _ _ (by omega)]
  unfold hyphens
  by_cases h8 : t.getD 8 0 = 45
  · rw [if_pos h8, collect_seg _ 9 _ _ (by simp [h]; omega) (by simp [h])]
    rw [show 8 + 1 + ((t.drop 9).take 4).length = 13 by simp [h], collect_hyphen _ _ _ _ (by omega)]
    by_cases h13 : t.getD 13 0 = 45
    · rw [if_pos h13, collect_seg _ 14 _ _ (by simp [h]; omega) (by simp [h])]
      rw [show 13 + 1 + ((t.drop 14).take 4).length = 18 by simp [h], collect_hyphen _ _ _ _ (by omega)]
      by_cases h18 : t.getD 18 0 = 45
      · rw [if_pos h18, collect_seg _ 19 _ _ (by simp [h]; omega) (by simp [h])]
        rw [show 18 + 1 + ((t.drop 19).take 4).length = 23 by simp [h], collect_hyphen _ _ _ _ (by omega)]
        by_cases h23 : t.getD 23 0 = 45
        · rw [if_pos h23, collect_seg _ 24 _ _ (by simp [h]; omega) (by simp [h])]
          rw [h8, h13, h18, h23]
          simp only [beq_self_eq_true, Bool.and_true, if_true, collect, digitsOf, List.nil_append]
        · rw [if_neg h23]
          simp only [beq_eq_false_iff_ne.2 h23, Bool.and_false, Bool.false_eq_true, if_false]
      · rw [if_neg h18]
        simp only [beq_eq_false_iff_ne.2 h18, Bool.and_false, Bool.false_and, Bool.false_eq_true, if_false]
    · rw [if_neg h13]
      simp only [beq_eq_false_iff_ne.2 h13, Bool.and_false, Bool.false_and, Bool.false_eq_true, if_false]
  · rw [if_neg h8]
    simp only [beq_eq_false_iff_ne.2 h8, Bool.false_and, Bool.false_eq_true, if_false]

/-- The second reading of a canonical text agrees with the first. -/
theorem slow_eq {t : List Nat} (h : t.length = 36) (hb : ∀ x ∈ t, x < 256) :
    ((collect 0 t []).bind fun d => if d.length = 32 then decodePairs d else none) = parseCanonical false t := by
  unfold parseCanonical
  rw [collect_eq h, decodeScalar_digits h hb]
  by_cases hh : hyphens t = true
  · simp only [hh, if_true, Option.bind_some, Bool.false_eq_true, if_false]
    rw [if_pos (by simp [digitsOf, h])]
  · simp only [Bool.not_eq_true] at hh
    simp [hh]

/-! ## Vector and portable decoding agree without control characters -/

theorem simd_scalar {t : List Nat} (hb : ∀ x ∈ t, x < 256) (hc : ∀ x ∈ t, ¬ (16 ≤ x ∧ x ≤ 25)) :
    parseCanonical true t = parseCanonical false t := by
  have hg : ∀ i, t.getD i 0 < 256 := by
    intro i
    rw [List.getD_eq_getElem?_getD]
    cases hi : t[i]? with
    | none => simp
    | some x => exact hb x (List.mem_of_getElem? hi)
  have hcg : ∀ i, ¬ (16 ≤ t.getD i 0 ∧ t.getD i 0 ≤ 25) := by
    intro i
    rw [List.getD_eq_getElem?_getD]
    cases hi : t[i]? with
    | none => simp
    | some x => exact hc x (List.mem_of_getElem? hi)
  have he : ∀ i, okAt (fun i => t.getD i 0) i = isHex (t.getD i 0) := by
    intro i
    unfold okAt
    rw [okLane_hex, decide_eq_false (hcg i), Bool.or_false, ite_self]
  unfold parseCanonical
  simp only [if_true, Bool.false_eq_true, if_false]
  rw [decodeSimd_eq t hg, decodeScalar_eq t hg]
  simp only [he]

/-! ## Batches -/

theorem vand_map_all (a b : List Bool) (h : a.length = b.length) :
    vand (a.map fun x => if x then 255 else 0) (b.map fun x => if x then 255 else 0) =
      (List.zipWith and a b).map fun x => if x then 255 else 0 := by
  unfold vand lanes
  induction a generalizing b with
  | nil => simp
  | cons x a ih => cases b with
    | nil => simp at h
    | cons y b =>
      simp only [List.map_cons, List.zipWith_cons_cons, ih b (by simpa using h)]
      cases x <;> cases y <;> rfl

theorem allSet_map (a : List Bool) : allSet (a.map fun x => if x then 255 else 0) = a.all id := by
  unfold allSet
  induction a with
  | nil => rfl
  | cons x a ih => simp only [List.map_cons, List.all_cons, ih]; cases x <;> simp

theorem decodeCore_bools (b : List Nat) (hb : ∀ i, b.getD i 0 < 256) :
    ∃ m : List Bool, m.length = 16 ∧ (decodeCore b).2 = m.map fun x => if x then 255 else 0 := by
  refine ⟨List.zipWith and ([0, 1, 2, 3, 4, 5, 6, 7, 9, 10, 11, 12, 14, 15, 0, 0].map fun i => okLane (b.getD i 0))
    ([16, 17, 19, 20, 21, 22, 24, 25, 26, 27, 28, 29, 30, 31, 16, 16].map fun i => okLane (b.getD i 0)), by simp, ?_⟩
  have ha : shuffle (load b 0) [0, 1, 2, 3, 4, 5, 6, 7, 9, 10, 11, 12, 14, 15, 0, 0] =
      [0, 1, 2, 3, 4, 5, 6, 7, 9, 10, 11, 12, 14, 15, 0, 0].map fun i => b.getD i 0 := by
    simp [shuffle, load, List.range_succ]
  have hbb : shuffle (load b 16) [0, 1, 3, 4, 5, 6, 8, 9, 10, 11, 12, 13, 14, 15, 0, 0] =
      [16, 17, 19, 20, 21, 22, 24, 25, 26, 27, 28, 29, 30, 31, 16, 16].map fun i => b.getD i 0 := by
    simp [shuffle, load, List.range_succ]
  rw [← vand_map_all _ _ (by simp)]
  unfold decodeCore
  simp only [ha, hbb]
  rw [hexOk_lane _ (by intro x hx; obtain ⟨i, _, rfl⟩ := List.mem_map.1 hx; exact hb i) (by simp),
    hexOk_lane _ (by intro x hx; obtain ⟨i, _, rfl⟩ := List.mem_map.1 hx; exact hb i) (by simp)]
  rfl

theorem xor45 (a : Nat) : a ^^^ 45 = 0 ↔ a = 45 := Nat.xor_eq_zero_iff

theorem dash_zero (b : List Nat) :
    ((b.getD 8 0 ^^^ 45) ||| (b.getD 13 0 ^^^ 45) ||| (b.getD 18 0 ^^^ 45) ||| (b.getD 23 0 ^^^ 45)) = 0 ↔
      hyphens b = true := by
  unfold hyphens
  simp only [Nat.or_eq_zero_iff, xor45, Bool.and_eq_true, beq_iff_eq]

theorem batchLoop_spec : ∀ (cs : List (List Nat)) (dash bad : Nat) (m : List Bool) (out : List (List Nat)),
    (∀ c ∈ cs, ∀ i, c.getD i 0 < 256) → m.length = 16 →
    (let r := batchLoop cs dash bad (m.map fun x => if x then 255 else 0) out
     (r.1 = 0 ∧ r.2.1 < 16 ∧ allSet r.2.2.1 = true) ↔
      ((dash = 0 ∧ bad < 16 ∧ m.all id = true) ∧
        ∀ c ∈ cs, hyphens c = true ∧ tail c < 16 ∧ allSet (decodeCore c).2 = true)) ∧
    (batchLoop cs dash bad (m.map fun x => if x then 255 else 0) out).2.2.2 =
      out ++ cs.map fun c => (decodeCore c).1
  | [], dash, bad, m, out, _, _ => by
    simp [batchLoop, allSet_map]
  | c :: cs, dash, bad, m, out, hc, hm => by
    obtain ⟨d, hd1, hd2⟩ := decodeCore_bools c (hc c (by simp))
    have hv : vand (m.map fun x => if x then 255 else 0) (decodeCore c).2 =
        (List.zipWith and m d).map fun x => if x then 255 else 0 := by
      rw [hd2, vand_map_all _ _ (by rw [hm, hd1])]
    have ih := batchLoop_spec cs
      (dash ||| ((c.getD 8 0 ^^^ 45) ||| (c.getD 13 0 ^^^ 45) ||| (c.getD 18 0 ^^^ 45) ||| (c.getD 23 0 ^^^ 45)))
      (bad ||| tail c) (List.zipWith and m d) (out ++ [(decodeCore c).1]) (fun x hx => hc x (by simp [hx]))
      (by simp [hm, hd1])
    have e : batchLoop (c :: cs) dash bad (m.map fun x => if x then 255 else 0) out =
      batchLoop cs
      (dash ||| ((c.getD 8 0 ^^^ 45) ||| (c.getD 13 0 ^^^ 45) ||| (c.getD 18 0 ^^^ 45) ||| (c.getD 23 0 ^^^ 45)))
      (bad ||| tail c) ((List.zipWith and m d).map fun x => if x then 255 else 0) (out ++ [(decodeCore c).1]) := by
      rw [← hv]; rfl
    have hall : ∀ (a b : List Bool), a.length = b.length →
        ((List.zipWith and a b).all id = true ↔ a.all id = true ∧ b.all id = true) := by
      intro a
      induction a with
      | nil => intro b h; cases b <;> simp at h ⊢
      | cons x a ih =>
        intro b h
        cases b with
        | nil => simp at h
        | cons y b =>
          have := ih b (by simpa using h)
          simp only [List.zipWith_cons_cons, List.all_cons, id, Bool.and_eq_true, this]
          tauto
    rw [e]
    refine ⟨?_, by rw [ih.2]; simp⟩
    have h1 := ih.1
    simp only at h1 ⊢
    rw [h1, Nat.or_eq_zero_iff, dash_zero, or_lt16, hall _ _ (by rw [hm, hd1])]
    simp only [List.forall_mem_cons]
    rw [hd2, allSet_map]
    tauto

theorem mapM_eq {f : List Nat → Option (List Nat)} {g : List Nat → List Nat} {P : List Nat → Prop}
    [DecidablePred P] : ∀ (cs : List (List Nat)), (∀ c ∈ cs, f c = if P c then some (g c) else none) →
    cs.mapM f = if ∀ c ∈ cs, P c then some (cs.map g) else none
  | [], _ => by simp
  | c :: cs, h => by
    have ih := mapM_eq cs (fun x hx => h x (by simp [hx]))
    rw [List.mapM_cons, h c (by simp), ih]
    by_cases h1 : P c
    · by_cases h2 : ∀ x ∈ cs, P x
      · rw [if_pos h1, if_pos h2, if_pos (by simpa using ⟨h1, h2⟩)]; rfl
      · rw [if_pos h1, if_neg h2, if_neg (by simp [h1]; simpa using h2)]; rfl
    · have h3 : ¬ ∀ x ∈ c :: cs, P x := fun k => h1 (k c (by simp))
      rw [if_neg h1, if_neg h3]; rfl

/-- The batch reads what reading the records one by one reads. -/
theorem parseBatch_eq (cs : List (List Nat)) (hb : ∀ c ∈ cs, ∀ i, c.getD i 0 < 256) :
    parseBatch cs = cs.mapM (parseCanonical true) := by
  have h := batchLoop_spec cs 0 0 (List.replicate 16 true) [] hb (by simp)
  have e : set1 255 = (List.replicate 16 true).map fun x => if x then 255 else 0 := by decide
  unfold parseBatch
  rw [e]
  generalize batchLoop cs 0 0 ((List.replicate 16 true).map fun x => if x then 255 else 0) [] = r at h
  obtain ⟨dash, bad, acc, out⟩ := r
  simp only at h
  rw [mapM_eq (P := fun c => hyphens c = true ∧ tail c < 16 ∧ allSet (decodeCore c).2 = true)
    (g := fun c => (decodeCore c).1)]
  · simp only [h.1, h.2, List.nil_append]
    by_cases hc : ∀ c ∈ cs, hyphens c = true ∧ tail c < 16 ∧ allSet (decodeCore c).2 = true
    · rw [if_pos hc, if_pos ⟨by decide, hc⟩]
    · rw [if_neg hc, if_neg (fun k => hc k.2)]
  · intro c _
    unfold parseCanonical decodeSimd
    by_cases h1 : hyphens c = true
    · simp only [h1, if_true, true_and]
      by_cases h2 : allSet (decodeCore c).2 = true ∧ tail c < 16
      · rw [if_pos h2, if_pos h2.symm]
      · rw [if_neg h2, if_neg (fun k => h2 k.symm)]
    · simp [h1]

/-! ## Encoding -/

theorem load_id {b : List Nat} (h : b.length = 16) : load b 0 = b := by
  conv_rhs => rw [as_range h]
  unfold load
  simp

theorem encodeSimd_eq {b : List Nat} (h : b.length = 16) (hb : ∀ x ∈ b, x < 256) :
    encodeSimd b = encodeScalar b := by
  have hi : vand (srli (load b 0) 4) (set1 15) = b.map (· / 16) := by
    rw [load_id h]
    have := hi_lane b hb (by omega)
    rw [h] at this
    exact this
  have lo : vand (load b 0) (set1 15) = b.map (· % 16) := by
    rw [load_id h]
    unfold vand lanes set1
    have key : ∀ l : List Nat, List.zipWith (· &&& ·) l (List.replicate l.length 15) = l.map (· % 16) := by
      intro l
      induction l with
      | nil => rfl
      | cons a l ih => simp only [List.length_cons, List.replicate_succ, List.zipWith_cons_cons, List.map_cons, ih, and15]
    have := key b
    rw [h] at this
    exact this
  have hs : ∀ f : Nat → Nat, (∀ x ∈ b, f x < 16) →
      shuffle hexTable (b.map f) = b.map fun x => hexTable.getD (f x) 0 := by
    intro f hf
    unfold shuffle
    rw [List.map_map]
    refine List.map_congr_left fun x hx => ?_
    have := hf x hx
    simp only [Function.comp]
    rw [if_neg (by omega), Nat.mod_eq_of_lt this]
  unfold encodeSimd
  simp only [hi, lo]
  rw [hs (· / 16) (fun x hx => by have := hb x hx; omega), hs (· % 16) (fun x _ => by omega)]
  unfold encodeScalar
  have hp : hexPair = fun x => [hexTable.getD (x / 16) 0, hexTable.getD (x % 16) 0] := by
    funext x
    rw [hexPair, shr4, and15]
  rw [hp]
  match b, h with
  | [b0, b1, b2, b3, b4, b5, b6, b7, b8, b9, b10, b11, b12, b13, b14, b15], _ =>
    simp [unpacklo, unpackhi, interleave, shuffle, alignr, vor, lanes]

/-! ## Numbers -/

theorem fromBE_append (a b : List Nat) : fromBE (a ++ b) = fromBE a * 256 ^ b.length + fromBE b := by
  have key : ∀ (b : List Nat) (n : Nat), b.foldl (fun n b => n * 256 + b) n =
      n * 256 ^ b.length + b.foldl (fun n b => n * 256 + b) 0 := by
    intro b
    induction b with
    | nil => intro n; simp
    | cons x b ih =>
      intro n
      simp only [List.foldl_cons, List.length_cons]
      rw [ih (n * 256 + x), ih (0 * 256 + x)]
      ring
  unfold fromBE
  rw [List.foldl_append, key]

theorem fromBE_lt : ∀ (b : List Nat), (∀ x ∈ b, x < 256) → fromBE b < 256 ^ b.length := by
  intro b
  induction b using List.reverseRecOn with
  | nil => intro _; simp [fromBE]
  | append_singleton b x ih =>
    intro h
    have h1 := ih (fun y hy => h y (by simp [hy]))
    have h2 := h x (by simp)
    rw [fromBE_append, List.length_append, List.length_singleton, Nat.pow_add]
    simp only [Nat.pow_one, fromBE, List.foldl_cons, List.foldl_nil] at *
    omega

theorem toBE_length (n v : Nat) : (toBE n v).length = n := by
  induction n generalizing v with
  | zero => rfl
  | succ n ih => simp [toBE, ih]

theorem toBE_lt (n v : Nat) : ∀ x ∈ toBE n v, x < 256 := by
  induction n generalizing v with
  | zero => simp [toBE]
  | succ n ih =>
    intro x hx
    simp only [toBE, List.mem_append, List.mem_singleton] at hx
    rcases hx with hx | rfl
    · exact ih _ x hx
    · omega

theorem fromBE_toBE (n v : Nat) : fromBE (toBE n v) = v % 256 ^ n := by
  induction n generalizing v with
  | zero => simp [toBE, fromBE, Nat.mod_one]
  | succ n ih =>
    rw [toBE, fromBE_append, ih]
    simp only [List.length_singleton, fromBE, List.foldl_cons, List.foldl_nil, Nat.pow_one]
    rw [Nat.pow_succ, Nat.mul_comm (256 ^ n) 256, Nat.mod_mul]
    omega

theorem toBE_fromBE (b : List Nat) (h : ∀ x ∈ b, x < 256) : toBE b.length (fromBE b) = b := by
  induction b using List.reverseRecOn with
  | nil => rfl
  | append_singleton b x ih =>
    have h1 := ih (fun y hy => h y (by simp [hy]))
    have h2 := h x (by simp)
    rw [List.length_append, List.length_singleton, toBE, fromBE_append]
    simp only [List.length_singleton, Nat.pow_one, fromBE, List.foldl_cons, List.foldl_nil] at *
    rw [show (b.foldl (fun n b => n * 256 + b) 0 * 256 + (0 * 256 + x)) / 256 =
      b.foldl (fun n b => n * 256 + b) 0 by omega, h1]
    congr 2
    omega

/-- Replacing some bits of a number. -/
theorem set_version (v k : Nat) (hv : v < 2 ^ 128) (hk : k < 16) :
    (v &&& (2 ^ 128 - 1 - (15 <<< 76))) ||| (k <<< 76) = v / 2 ^ 80 * 2 ^ 80 + (k * 2 ^ 76 + v % 2 ^ 76) := by
  apply Nat.eq_of_testBit_eq
  intro j
  have hm : ∀ j < 128, (2 ^ 128 - 1 - (15 <<< 76)).testBit j = !(decide (76 ≤ j) && decide (j < 80)) := by
    decide +kernel
  have hlt : k * 2 ^ 76 + v % 2 ^ 76 < 2 ^ 80 := by
    have : v % 2 ^ 76 < 2 ^ 76 := Nat.mod_lt _ (by decide)
    omega
  have hmlt : v % 2 ^ 76 < 2 ^ 76 := Nat.mod_lt _ (by decide)
  rw [Nat.mul_comm (v / 2 ^ 80), Nat.testBit_two_pow_mul_add _ hlt, Nat.mul_comm k,
    Nat.testBit_two_pow_mul_add _ hmlt]
  rw [Nat.testBit_or, Nat.testBit_and, Nat.testBit_shiftLeft]
  have hkb : ∀ i, 4 ≤ i → k.testBit i = false := fun i hi =>
    Nat.testBit_lt_two_pow (lt_of_lt_of_le hk (by
      calc 16 = 2 ^ 4 := rfl
        _ ≤ 2 ^ i := Nat.pow_le_pow_right (by decide) hi))
  by_cases h128 : j < 128
  · rw [hm j h128]
    by_cases h80 : j < 80
    · rw [if_pos h80]
      by_cases h76 : j < 76
      · rw [if_pos h76, Nat.testBit_mod_two_pow]
        simp [h76, show ¬ 76 ≤ j by omega]
      · rw [if_neg h76]
        simp [h80, show 76 ≤ j by omega]
    · rw [if_neg h80, Nat.testBit_div_two_pow]
      simp [h80, hkb (j - 76) (by omega), show j - 80 + 80 = j by omega]
  · have hvj : v.testBit j = false := Nat.testBit_lt_two_pow (lt_of_lt_of_le hv
      (Nat.pow_le_pow_right (by decide) (by omega)))
    rw [if_neg (by omega), Nat.testBit_div_two_pow]
    simp [show j - 80 + 80 = j by omega, hvj, hkb (j - 76) (by omega)]

theorem set_variant (v : Nat) (hv : v < 2 ^ 128) :
    (v &&& (2 ^ 128 - 1 - (3 <<< 62))) ||| (2 <<< 62) = v / 2 ^ 64 * 2 ^ 64 + (2 * 2 ^ 62 + v % 2 ^ 62) := by
  apply Nat.eq_of_testBit_eq
  intro j
  have hm : ∀ j < 128, (2 ^ 128 - 1 - (3 <<< 62)).testBit j = !(decide (62 ≤ j) && decide (j < 64)) := by
    decide +kernel
  have hlt : 2 * 2 ^ 62 + v % 2 ^ 62 < 2 ^ 64 := by
    have : v % 2 ^ 62 < 2 ^ 62 := Nat.mod_lt _ (by decide)
    omega
  have hmlt : v % 2 ^ 62 < 2 ^ 62 := Nat.mod_lt _ (by decide)
  rw [Nat.mul_comm (v / 2 ^ 64), Nat.testBit_two_pow_mul_add _ hlt, Nat.mul_comm 2,
    Nat.testBit_two_pow_mul_add _ hmlt]
  rw [Nat.testBit_or, Nat.testBit_and, Nat.testBit_shiftLeft]
  have hkb : ∀ i, 2 ≤ i → (2 : Nat).testBit i = false := fun i hi =>
    Nat.testBit_lt_two_pow (lt_of_lt_of_le (by decide : 2 < 2 ^ 2) (Nat.pow_le_pow_right (by decide) hi))
  by_cases h128 : j < 128
  · rw [hm j h128]
    by_cases h64 : j < 64
    · rw [if_pos h64]
      by_cases h62 : j < 62
      · rw [if_pos h62, Nat.testBit_mod_two_pow]
        simp [h62, show ¬ 62 ≤ j by omega]
      · rw [if_neg h62]
        simp [h64, show 62 ≤ j by omega]
    · rw [if_neg h64, Nat.testBit_div_two_pow]
      simp [h64, hkb (j - 62) (by omega), show j - 64 + 64 = j by omega]
  · have hvj : v.testBit j = false := Nat.testBit_lt_two_pow (lt_of_lt_of_le hv
      (Nat.pow_le_pow_right (by decide) (by omega)))
    rw [if_neg (by omega), Nat.testBit_div_two_pow]
    simp [show j - 64 + 64 = j by omega, hvj, hkb (j - 62) (by omega)]

/-- Stamping changes the upper half of byte 6 and the upper two bits of byte 8. -/
theorem stamp_eq (a : List Nat) (x y z : Nat) (c : List Nat) (k : Nat) (ha : a.length = 6) (hc : c.length = 7)
    (hb : ∀ w ∈ a ++ [x, y, z] ++ c, w < 256) (hk : k < 16) :
    stamp (a ++ [x, y, z] ++ c) k = a ++ [k * 16 + x % 16, y, 128 + z % 64] ++ c := by
  have hx : x < 256 := hb x (by simp)
  have hy : y < 256 := hb y (by simp)
  have hz : z < 256 := hb z (by simp)
  have hC := fromBE_lt c (fun w hw => hb w (by simp [hw]))
  have hA := fromBE_lt a (fun w hw => hb w (by simp [hw]))
  rw [hc] at hC
  rw [ha] at hA
  have val : ∀ x y z, fromBE (a ++ [x, y, z] ++ c) =
      ((fromBE a * 256 + x) * 256 + y) * 2 ^ 64 + (z * 2 ^ 56 + fromBE c) := by
    intro x y z
    rw [fromBE_append, fromBE_append, hc]
    simp only [fromBE, List.foldl_cons, List.foldl_nil, List.length_cons, List.length_nil]
    ring
  have hval := val x y z
  have hv := fromBE_lt _ hb
  rw [show (a ++ [x, y, z] ++ c).length = 16 by simp [ha, hc]] at hv
  have hv : fromBE (a ++ [x, y, z] ++ c) < 2 ^ 128 := by simpa using hv
  have e1 : fromBE (a ++ [x, y, z] ++ c) / 2 ^ 80 = fromBE a := by
    rw [hval]; norm_num at hC ⊢; omega
  have e2 : fromBE (a ++ [x, y, z] ++ c) % 2 ^ 76 = (x % 16 * 256 + y) * 2 ^ 64 + (z * 2 ^ 56 + fromBE c) := by
    rw [hval]; norm_num at hC ⊢; omega
  have step1 := set_version _ k hv hk
  rw [e1, e2] at step1
  have step1' : (fromBE (a ++ [x, y, z] ++ c) &&& (2 ^ 128 - 1 - (15 <<< 76))) ||| (k <<< 76) =
      fromBE (a ++ [k * 16 + x % 16, y, z] ++ c) := by
    rw [step1, val]; ring
  have hb2 : ∀ w ∈ a ++ [k * 16 + x % 16, y, z] ++ c, w < 256 := by
    intro w hw
    simp only [List.mem_append, List.mem_cons, List.not_mem_nil, or_false] at hw
    rcases hw with (hw | rfl | rfl | rfl) | hw
    · exact hb w (by simp [hw])
    · omega
    · exact hy
    · exact hz
    · exact hb w (by simp [hw])
  have hv2 := fromBE_lt _ hb2
  rw [show (a ++ [k * 16 + x % 16, y, z] ++ c).length = 16 by simp [ha, hc]] at hv2
  have hv2 : fromBE (a ++ [k * 16 + x % 16, y, z] ++ c) < 2 ^ 128 := by simpa using hv2
  have step2 := set_variant _ hv2
  have hval2 := val (k * 16 + x % 16) y z
  have f1 : fromBE (a ++ [k * 16 + x % 16, y, z] ++ c) / 2 ^ 64 = (fromBE a * 256 + (k * 16 + x % 16)) * 256 + y := by
    rw [hval2]; norm_num at hC ⊢; omega
  have f2 : fromBE (a ++ [k * 16 + x % 16, y, z] ++ c) % 2 ^ 62 = z % 64 * 2 ^ 56 + fromBE c := by
    rw [hval2]; norm_num at hC ⊢; omega
  rw [f1, f2] at step2
  have step2' : (fromBE (a ++ [k * 16 + x % 16, y, z] ++ c) &&& (2 ^ 128 - 1 - (3 <<< 62))) ||| (2 <<< 62) =
      fromBE (a ++ [k * 16 + x % 16, y, 128 + z % 64] ++ c) := by
    rw [step2, val]; ring
  have hb3 : ∀ w ∈ a ++ [k * 16 + x % 16, y, 128 + z % 64] ++ c, w < 256 := by
    intro w hw
    simp only [List.mem_append, List.mem_cons, List.not_mem_nil, or_false] at hw
    rcases hw with (hw | rfl | rfl | rfl) | hw
    · exact hb w (by simp [hw])
    · omega
    · exact hy
    · omega
    · exact hb w (by simp [hw])
  unfold stamp
  simp only [step1', step2']
  have := toBE_fromBE _ hb3
  rw [show (a ++ [k * 16 + x % 16, y, 128 + z % 64] ++ c).length = 16 by simp [ha, hc]] at this
  exact this

end Verif.Num.Uuid
