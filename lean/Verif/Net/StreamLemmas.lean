import Verif.Net.Stream
import Mathlib.Data.List.Infix
/-! # Lemmas about stream framing and chunks -/
namespace Verif.Net

theorem and127 (x : Nat) : x &&& 127 = x % 128 := Nat.and_two_pow_sub_one_eq_mod x 7

theorem frameLen_eq (len : Nat) : frameLen len = writeUvarint len := by
  induction len using Nat.strongRecOn with
  | _ x ih =>
    rw [frameLen, writeUvarint]
    have e : x >>> 7 = x / 128 := Nat.shiftRight_eq_div_pow x 7
    by_cases h : 128 ≤ x
    · have h1 : x >>> 7 ≠ 0 := by omega
      rw [dif_pos h1, dif_pos h, or128, ih _ (by omega), and127]
      have := or128 (x % 128)
      rw [Nat.mod_eq_of_lt (by omega : x % 128 < 256)] at this
      rw [this]; simp
    · have h1 : ¬ x >>> 7 ≠ 0 := by omega
      rw [dif_neg h1, dif_neg h, and127, Nat.mod_eq_of_lt (by omega), Nat.mod_eq_of_lt (by omega)]

theorem streamLoop_eq (bs : List Nat) : ∀ v s i n rest, s < 64 →
    readUvarintLoop v s bs = some (n, rest) →
    streamUvarintLoop v s i bs = some (n, i + (bs.length - rest.length)) := by
  induction bs with
  | nil => intro v s i n rest _ h; simp [readUvarintLoop] at h
  | cons b bs ih =>
    intro v s i n rest hs h
    rw [readUvarintLoop, if_neg (by omega)] at h
    rw [streamUvarintLoop]
    simp only [] at h ⊢
    by_cases hb : b &&& 128 = 0
    · rw [if_pos hb] at h ⊢
      simp only [Option.some.injEq, Prod.mk.injEq] at h
      obtain ⟨h1, rfl⟩ := h
      rw [h1]; simp
    · rw [if_neg hb] at h ⊢
      have hs7 : ¬ s + 7 ≥ 64 := by
        intro hc
        cases bs with
        | nil => simp [readUvarintLoop] at h
        | cons c bs => rw [readUvarintLoop, if_pos hc] at h; cases h
      rw [if_neg hs7, ih _ _ (i + 1) _ _ (by omega) h]
      obtain ⟨u, hu, h1, -⟩ := readLoop_prefixed _ _ _ _ _ h
      have := congrArg List.length h1
      simp only [List.length_append] at this
      simp only [List.length_cons]
      congr 2; omega

theorem streamUvarint_frame (len : Nat) (h : len < 2 ^ 64) (rest : List Nat) :
    streamUvarint (frameLen len ++ rest) = some (len, (frameLen len).length) := by
  rw [frameLen_eq]
  have := streamLoop_eq _ 0 0 0 len rest (by decide) (read_write_uvarint len h rest)
  unfold streamUvarint
  rw [this]; simp

/-- A successful read needs the whole header. -/
theorem streamLoop_ext (bs : List Nat) : ∀ v s i r, streamUvarintLoop v s i bs = some r →
    ∀ rest, streamUvarintLoop v s i (bs ++ rest) = some r := by
  induction bs with
  | nil => intro v s i r h; simp [streamUvarintLoop] at h
  | cons b bs ih =>
    intro v s i r h rest
    rw [List.cons_append, streamUvarintLoop]
    rw [streamUvarintLoop] at h
    split
    · rename_i hb; rwa [if_pos hb] at h
    · rename_i hb
      rw [if_neg hb] at h
      split
      · rename_i hc; rw [if_pos hc] at h; cases h
      · rename_i hc; rw [if_neg hc] at h; exact ih _ _ _ _ h rest

theorem streamLoop_le (bs : List Nat) : ∀ v s i n k, streamUvarintLoop v s i bs = some (n, k) →
    k ≤ i + bs.length := by
  induction bs with
  | nil => intro v s i n k h; simp [streamUvarintLoop] at h
  | cons b bs ih =>
    intro v s i n k h
    rw [streamUvarintLoop] at h
    split at h
    · simp only [Option.some.injEq, Prod.mk.injEq] at h; simp; omega
    · split at h
      · cases h
      · have := ih _ _ _ _ _ h; simp; omega

theorem framesOf_cons (m : List Nat) (ms) : framesOf (m :: ms) = frameForStream m ++ framesOf ms := rfl

theorem framesOf_append (a b : List (List Nat)) : framesOf (a ++ b) = framesOf a ++ framesOf b := by
  simp [framesOf]

theorem frameLen_pos (n : Nat) : 0 < (frameLen n).length := by
  rw [frameLen_eq]; exact List.length_pos_iff.mpr (writeUvarint_ne_nil n)

/-- On a proper prefix of a frame the loop stops. -/
theorem drainLoop_partial (pre B : List Nat) (m : List Nat) (f : Nat) (hm : m.length < 2 ^ 64)
    (hp : B <+: frameForStream m) (hne : B.length < (frameForStream m).length) :
    drainLoop (pre ++ B) f pre.length = ([], pre.length) := by
  cases f with
  | zero => rfl
  | succ f =>
    rw [drainLoop, List.drop_left']
    swap
    · rfl
    cases hs : streamUvarint B with
    | none => rfl
    | some r =>
      obtain ⟨len, header⟩ := r
      obtain ⟨t, ht⟩ := hp
      have h1 := streamLoop_ext B 0 0 0 _ hs t
      have h2 := streamUvarint_frame m.length hm m
      change streamUvarint (B ++ t) = _ at h1
      rw [ht] at h1
      rw [show frameForStream m = frameLen m.length ++ m from rfl] at h1
      rw [h1] at h2
      simp only [Option.some.injEq, Prod.mk.injEq] at h2
      obtain ⟨rfl, rfl⟩ := h2
      simp only []
      split
      · rfl
      · rw [if_pos]
        simp only [frameForStream, List.length_append] at hne ⊢
        omega

theorem drainLoop_frames (ms : List (List Nat)) : ∀ (pre B : List Nat) (f : Nat),
    B <+: framesOf ms → B.length < f → pre.length + (framesOf ms).length < 2 ^ 64 →
    ∃ j rest, j ≤ ms.length ∧ B = framesOf (ms.take j) ++ rest ∧
      drainLoop (pre ++ B) f pre.length = (ms.take j, pre.length + (framesOf (ms.take j)).length) ∧
      (∀ m ∈ ms[j]?, rest <+: frameForStream m ∧ rest.length < (frameForStream m).length) ∧
      (ms[j]? = none → rest = []) := by
  induction ms with
  | nil =>
    intro pre B f hB hf _
    have : B = [] := by simpa [framesOf] using hB
    subst this
    refine ⟨0, [], by simp, by simp [framesOf], ?_, by simp, by simp⟩
    cases f with
    | zero => rfl
    | succ f =>
      rw [drainLoop]
      simp [streamUvarint, streamUvarintLoop, framesOf]
  | cons m ms ih =>
    intro pre B f hB hf hlen
    rw [framesOf_cons] at hB hlen
    simp only [List.length_append] at hlen
    have hm : m.length < 2 ^ 64 := by
      have : (frameForStream m).length = (frameLen m.length).length + m.length := by
        simp [frameForStream]
      omega
    by_cases hlt : B.length < (frameForStream m).length
    · have hp : B <+: frameForStream m := List.prefix_of_prefix_length_le hB (List.prefix_append _ _) (by omega)
      refine ⟨0, B, by simp, by simp [framesOf], ?_, ?_, by simp⟩
      · rw [drainLoop_partial pre B m f hm hp hlt]; simp [framesOf]
      · intro m' hm'
        simp at hm'; subst hm'
        exact ⟨hp, hlt⟩
    · have hp : frameForStream m <+: B :=
        List.prefix_of_prefix_length_le (List.prefix_append _ _) hB (by omega)
      obtain ⟨B', rfl⟩ := hp
      have hB' : B' <+: framesOf ms := (List.prefix_append_right_inj _).mp hB
      have hfl : 0 < (frameForStream m).length := by
        have := frameLen_pos m.length
        simp [frameForStream]; omega
      obtain ⟨f, rfl⟩ : ∃ g, f = g + 1 := ⟨f - 1, by omega⟩
      obtain ⟨j, rest, h1, h2, h3, h4, h5⟩ := ih (pre ++ frameForStream m) B' f hB'
        (by simp only [List.length_append] at hf; omega) (by simp only [List.length_append]; omega)
      refine ⟨j + 1, rest, by simp; omega, ?_, ?_, by simpa using h4, by simpa using h5⟩
      · rw [List.take_succ_cons, framesOf_cons, List.append_assoc, ← h2]
      · have hl := hB'.length_le
        simp only [List.append_assoc, List.length_append] at h3
        rw [List.take_succ_cons, framesOf_cons, drainLoop, List.drop_left']
        swap
        · rfl
        have he : frameForStream m ++ B' = frameLen m.length ++ (m ++ B') := by
          simp [frameForStream]
        have hs := streamUvarint_frame m.length hm (m ++ B')
        rw [← he] at hs
        rw [hs]
        simp only []
        have hfm : (frameForStream m).length = (frameLen m.length).length + m.length := by
          simp [frameForStream]
        rw [if_neg (by omega), if_neg (by simp only [List.length_append]; omega)]
        rw [show pre.length + (frameLen m.length).length + m.length = pre.length + (frameForStream m).length by omega, h3]
        simp only [List.length_append]
        have hbody : List.take m.length (List.drop (pre.length + (frameLen m.length).length)
            (pre ++ (frameForStream m ++ B'))) = m := by
          rw [← List.drop_drop, List.drop_left' rfl, he, List.drop_left' rfl, List.take_left' rfl]
        rw [hbody]
        simp only [Prod.mk.injEq, true_and]
        omega

/-- What the deframer has delivered and holds, between calls. -/
def StreamInv (ms : List (List Nat)) (pushed : List Nat) (k : Nat) (d : Deframer) : Prop :=
  k ≤ ms.length ∧ d.start = 0 ∧ pushed = framesOf (ms.take k) ++ d.buf

/-- No complete frame is left in the buffer. -/
def Drained (ms : List (List Nat)) (k : Nat) (d : Deframer) : Prop :=
  (∀ m ∈ ms[k]?, d.buf.length < (frameForStream m).length) ∧ (ms[k]? = none → d.buf = [])

theorem take_add' {A : Type} (l : List A) (k j : Nat) : l.take (k + j) = l.take k ++ (l.drop k).take j := by
  rw [List.take_add]

theorem drain_step (ms : List (List Nat)) (p : List Nat) (k : Nat) (d : Deframer)
    (hp : p <+: framesOf ms) (hlen : (framesOf ms).length < 2 ^ 64) (h : StreamInv ms p k d) :
    ∃ j, k + j ≤ ms.length ∧ d.drain.1 = (ms.drop k).take j ∧ StreamInv ms p (k + j) d.drain.2 ∧
      Drained ms (k + j) d.drain.2 := by
  obtain ⟨hk, hs, hb⟩ := h
  have hsplit : framesOf ms = framesOf (ms.take k) ++ framesOf (ms.drop k) := by
    rw [← framesOf_append, List.take_append_drop]
  have hB : d.buf <+: framesOf (ms.drop k) := by
    rw [hsplit, hb] at hp
    exact (List.prefix_append_right_inj _).mp hp
  have hl2 : (framesOf (ms.drop k)).length < 2 ^ 64 := by
    rw [hsplit, List.length_append] at hlen; omega
  obtain ⟨j, rest, h1, h2, h3, h4, h5⟩ := drainLoop_frames (ms.drop k) [] d.buf (d.buf.length + 1) hB
    (by omega) (by simpa using hl2)
  simp only [List.nil_append, List.length_nil, Nat.zero_add] at h3
  have hd : d.drain = ((ms.drop k).take j, ⟨rest, 0⟩) := by
    unfold Deframer.drain
    rw [hs, h3]
    simp only []
    congr 1
    have hdrop : d.buf.drop (framesOf ((ms.drop k).take j)).length = rest := by
      rw [h2]; exact List.drop_left' rfl
    by_cases h0 : (framesOf (List.take j (List.drop k ms))).length > 0
    · rw [if_pos h0, hdrop]
    · rw [if_neg h0]
      have : (framesOf (List.take j (List.drop k ms))).length = 0 := by omega
      rw [this] at hdrop ⊢
      simp at hdrop; rw [hdrop]
  simp only [List.length_drop] at h1
  refine ⟨j, by omega, by rw [hd], ⟨by omega, by rw [hd], ?_⟩, ?_⟩
  · rw [hd, hb, take_add', framesOf_append, List.append_assoc, ← h2]
  · rw [hd]
    refine ⟨fun m hm => ?_, fun hn => ?_⟩
    · exact (h4 m (by rwa [List.getElem?_drop])).2
    · exact h5 (by rwa [List.getElem?_drop])

theorem runStream_inv (ms : List (List Nat)) (hlen : (framesOf ms).length < 2 ^ 64) :
    ∀ (ops : List StreamOp) (d : Deframer) (p : List Nat) (k : Nat), StreamInv ms p k d →
      p ++ pushedBytes ops <+: framesOf ms →
      ∃ j, k + j ≤ ms.length ∧ (runStream d ops).1 = (ms.drop k).take j ∧
        StreamInv ms (p ++ pushedBytes ops) (k + j) (runStream d ops).2 := by
  intro ops
  induction ops with
  | nil =>
    intro d p k h _
    exact ⟨0, h.1, by simp [runStream], by simpa [runStream, pushedBytes] using h⟩
  | cons o ops ih =>
    intro d p k h hp
    cases o with
    | push b =>
      simp only [pushedBytes, ← List.append_assoc] at hp ⊢
      exact ih (d.push b) (p ++ b) k ⟨h.1, h.2.1, by rw [h.2.2]; simp [Deframer.push]⟩ hp
    | drain =>
      simp only [pushedBytes] at hp ⊢
      obtain ⟨j, h1, h2, h3, -⟩ := drain_step ms p k d
        (List.IsPrefix.trans (List.prefix_append _ _) hp) hlen h
      obtain ⟨i, g1, g2, g3⟩ := ih d.drain.2 p (k + j) h3 hp
      refine ⟨j + i, by omega, ?_, by rw [← Nat.add_assoc]; exact g3⟩
      simp only [runStream]
      rw [h2, g2, take_add', List.drop_drop]

theorem runStream_append (ops1 ops2 : List StreamOp) : ∀ d, runStream d (ops1 ++ ops2) =
    ((runStream d ops1).1 ++ (runStream (runStream d ops1).2 ops2).1,
      (runStream (runStream d ops1).2 ops2).2) := by
  induction ops1 with
  | nil => intro d; simp [runStream]
  | cons o ops ih => intro d; cases o <;> simp [runStream, ih]

theorem pushedBytes_append (a b : List StreamOp) : pushedBytes (a ++ b) = pushedBytes a ++ pushedBytes b := by
  induction a with
  | nil => rfl
  | cons o ops ih => cases o <;> simp [pushedBytes, ih]

/-! ### Chunks -/

theorem chunkCount_eq (size c : Nat) (hc : 0 < c) (hs : size + c < 2 ^ 64) :
    chunkCount size c = some ((size + c - 1) / c) := by
  unfold chunkCount
  split
  · rename_i h; subst h
    rw [Nat.zero_add, Nat.div_eq_of_lt (by omega)]
  · rw [if_neg (by omega)]
    unfold wrap64
    rw [Nat.mod_eq_of_lt (by omega : size + c < 18446744073709551616)]
    have : (size + c + 18446744073709551615) % 18446744073709551616 = size + c - 1 := by omega
    rw [this]

theorem getChunk_eq (file : List Nat) (c i : Nat) (hi : i * c + c < 2 ^ 64) :
    getChunk file c i = some ((file.drop (i * c)).take c) := by
  unfold getChunk wrap64
  have e1 : i * c % 18446744073709551616 = i * c := Nat.mod_eq_of_lt (by omega)
  have e2 : (i * c + c) % 18446744073709551616 = i * c + c := Nat.mod_eq_of_lt (by omega)
  simp only [e1, e2]
  split
  · rename_i h
    rw [List.drop_eq_nil_of_le h]; simp
  · rename_i h
    rw [if_pos (by omega)]
    congr 1
    by_cases hle : i * c + c ≤ file.length
    · rw [Nat.min_eq_left hle]; congr 1; omega
    · rw [Nat.min_eq_right (by omega)]
      rw [List.take_of_length_le (by simp), List.take_of_length_le (by simp; omega)]

theorem chunks_take (file : List Nat) (c n : Nat) :
    ((List.range n).map fun i => (file.drop (i * c)).take c).flatten = file.take (n * c) := by
  induction n with
  | zero => simp
  | succ n ih =>
    rw [List.range_succ, List.map_append, List.flatten_append, ih, Nat.succ_mul, take_add']
    simp

end Verif.Net
