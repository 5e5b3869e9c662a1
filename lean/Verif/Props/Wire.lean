import Verif.Net.StreamLemmas
import Mathlib.Data.List.Infix
/-! # C34 file chunks, C36 stream framing, C37 the wire codec -/
namespace Verif.Props
open Verif.Net

/-! ## C34 -/

/-- **C34**: for every file and chunk size `≥ 1` (both small enough that their sum is a machine
word), the chunks `0 .. chunk_count-1` concatenated in order are the file. -/
theorem C34_reassemble (file : List Nat) (c : Nat) (hc : 1 ≤ c) (hs : file.length + c < 2 ^ 64) :
    ∃ n chunks, chunkCount file.length c = some n ∧
      (List.range n).mapM (getChunk file c) = some chunks ∧ chunks.flatten = file := by
  have hn := chunkCount_eq file.length c hc hs
  refine ⟨_, (List.range ((file.length + c - 1) / c)).map fun i => (file.drop (i * c)).take c, hn, ?_, ?_⟩
  · have hmem : ∀ i ∈ List.range ((file.length + c - 1) / c),
        getChunk file c i = some ((file.drop (i * c)).take c) := by
      intro i hi
      apply getChunk_eq
      have h1 : (i + 1) * c ≤ file.length + c - 1 :=
        Nat.le_trans (Nat.mul_le_mul_right _ (List.mem_range.mp hi)) (Nat.div_mul_le_self _ _)
      rw [Nat.succ_mul] at h1
      omega
    generalize List.range ((file.length + c - 1) / c) = l at hmem
    induction l with
    | nil => rfl
    | cons a l ih =>
      rw [List.mapM_cons, hmem a (by simp), ih fun i hi => hmem i (by simp [hi])]
      rfl
  · rw [chunks_take]
    apply List.take_of_length_le
    have := Nat.div_add_mod (file.length + c - 1) c
    have h2 := Nat.mod_lt (file.length + c - 1) hc
    rw [Nat.mul_comm] at this
    omega

/-- **C34**: a chunk is non-empty exactly when its index is below `chunk_count`; an index at or past
it gives no bytes.  Every chunk but the last has exactly the chunk size. -/
theorem C34_count (file : List Nat) (c : Nat) (hc : 1 ≤ c) (i : Nat)
    (hs : file.length + c < 2 ^ 64) (hi : i * c + c < 2 ^ 64) :
    ∃ n chunk, chunkCount file.length c = some n ∧ getChunk file c i = some chunk ∧
      (chunk ≠ [] ↔ i < n) ∧ (i + 1 < n → chunk.length = c) ∧ chunk.length ≤ c ∧
      (∀ j, chunk[j]? = if j < c then file[i * c + j]? else none) := by
  refine ⟨_, _, chunkCount_eq _ _ hc hs, getChunk_eq _ _ _ hi, ?_, ?_, ?_, ?_⟩
  · rw [Nat.lt_div_iff_mul_lt hc, ← List.length_pos_iff]
    simp only [List.length_take, List.length_drop]
    rw [Nat.mul_comm]
    omega
  · rw [Nat.lt_div_iff_mul_lt hc]
    intro h
    have : (i + 1) * c = i * c + c := Nat.succ_mul _ _
    simp only [List.length_take, List.length_drop]
    omega
  · simp only [List.length_take]; omega
  · intro j
    rw [List.getElem?_take]
    simp

example : ∃ n chunks, chunkCount [1,2,3,4,5].length 2 = some n ∧
    (List.range n).mapM (getChunk [1,2,3,4,5] 2) = some chunks ∧ chunks.flatten = [1,2,3,4,5] ∧
    chunks = [[1,2],[3,4],[5]] := ⟨3, [[1,2],[3,4],[5]], by decide +kernel, by decide +kernel, rfl, rfl⟩

/-- **C34**: the manifest lists one hash per chunk, the hash of that chunk. -/
theorem C34_manifest {H : Type} (sha : List Nat → H) (file : List Nat) (c : Nat) (hc : 1 ≤ c)
    (hs : file.length + c < 2 ^ 64) :
    ∃ chunks : List (List Nat), manifestHashes sha file c = some (chunks.map sha) ∧ chunks.flatten = file ∧
      ∀ x ∈ chunks, x ≠ [] := by
  obtain ⟨n, chunks, h1, h2, h3⟩ := C34_reassemble file c hc hs
  refine ⟨chunks, ?_, h3, ?_⟩
  · unfold manifestHashes
    rw [h1]
    simp only []
    generalize List.range n = l at h2
    clear h1 h3
    induction l generalizing chunks with
    | nil => simp at h2; subst h2; rfl
    | cons a l ih =>
      rw [List.mapM_cons] at h2
      rw [List.mapM_cons]
      cases hg : getChunk file c a with
      | none => rw [hg] at h2; cases h2
      | some x =>
        rw [hg] at h2
        cases hr : l.mapM (getChunk file c) with
        | none => rw [hr] at h2; cases h2
        | some xs =>
          rw [hr] at h2
          have : x :: xs = chunks := by simpa using h2
          subst this
          rw [ih xs hr]; rfl
  · intro x hx
    rw [chunkCount_eq _ _ hc hs] at h1
    have hn : n = (file.length + c - 1) / c := by simpa using h1.symm
    have key : ∀ (l : List Nat) (cs : List (List Nat)), (∀ i ∈ l, i < n) → l.mapM (getChunk file c) = some cs →
        ∀ x ∈ cs, x ≠ [] := by
      intro l
      induction l with
      | nil => intro cs _ h; simp at h; subst h; simp
      | cons a l ih =>
        intro cs hl h
        rw [List.mapM_cons] at h
        have ha := hl a (by simp)
        have hac : a * c + c < 2 ^ 64 := by
          have h1 : (a + 1) * c ≤ file.length + c - 1 := by
            rw [hn] at ha
            exact Nat.le_trans (Nat.mul_le_mul_right _ ha) (Nat.div_mul_le_self _ _)
          rw [Nat.succ_mul] at h1; omega
        obtain ⟨n', ch, e1, e2, e3, -⟩ := C34_count file c hc a hs hac
        rw [chunkCount_eq _ _ hc hs] at e1
        have hn' : n' = n := by rw [hn]; simpa using e1.symm
        rw [e2] at h
        cases hr : l.mapM (getChunk file c) with
        | none => rw [hr] at h; cases h
        | some xs =>
          rw [hr] at h
          have : ch :: xs = cs := by simpa using h
          subst this
          intro x hx
          rcases List.mem_cons.mp hx with rfl | hx
          · exact e3.mpr (by omega)
          · exact ih xs (fun i hi => hl i (by simp [hi])) hr x hx
    exact key _ _ (by simp) h2 x hx

/-- **C34 fails** at the edges of the machine word: a chunk size of zero divides by zero, with the
largest chunk size a five-byte file has no chunk, and a far too large index returns the first
chunk instead of nothing. -/
theorem C34_edges_fails :
    chunkCount 5 0 = none ∧ chunkCount 5 18446744073709551615 = some 0 ∧
    getChunk [7] 262144 70368744177664 = some [7] := by decide +kernel

/-! ## C36 -/

/-- **C36**: for every list of messages, feed the deframer any bytes that are a prefix of the framed
messages, cut into pieces in any way, draining whenever one likes.  At every moment what has been
delivered is exactly the first `k` messages, in order, each once; those `k` frames have fully
arrived; and the undelivered bytes held are precisely the rest of what was pushed. -/
theorem C36_delivers_in_order (ms : List (List Nat)) (hlen : (framesOf ms).length < 2 ^ 64)
    (ops : List StreamOp) (hp : pushedBytes ops <+: framesOf ms) :
    ∃ k, k ≤ ms.length ∧ (runStream Deframer.new ops).1 = ms.take k ∧
      pushedBytes ops = framesOf (ms.take k) ++ (runStream Deframer.new ops).2.buf ∧
      (runStream Deframer.new ops).2.pending + (framesOf (ms.take k)).length = (pushedBytes ops).length := by
  obtain ⟨j, h1, h2, h3⟩ := runStream_inv ms hlen ops Deframer.new [] 0
    ⟨by simp, rfl, by simp [framesOf, Deframer.new]⟩ (by simpa using hp)
  simp only [Nat.zero_add, List.nil_append, List.drop_zero] at h1 h2 h3
  refine ⟨j, h1, h2, h3.2.2, ?_⟩
  unfold Deframer.pending
  rw [h3.2.1]
  have := congrArg List.length h3.2.2
  simp only [List.length_append] at this
  omega

/-- **C36**: after a drain nothing deliverable is kept: every message whose frame has fully arrived
has been delivered. -/
theorem C36_not_late (ms : List (List Nat)) (hlen : (framesOf ms).length < 2 ^ 64)
    (ops : List StreamOp) (hp : pushedBytes ops <+: framesOf ms)
    (j : Nat) (hj : j ≤ ms.length) (harr : framesOf (ms.take j) <+: pushedBytes ops) :
    ms.take j <+: (runStream Deframer.new (ops ++ [.drain])).1 := by
  obtain ⟨k, h1, h2, h3⟩ := runStream_inv ms hlen ops Deframer.new [] 0
    ⟨by simp, rfl, by simp [framesOf, Deframer.new]⟩ (by simpa using hp)
  simp only [Nat.zero_add, List.nil_append, List.drop_zero] at h1 h2 h3
  obtain ⟨i, g1, g2, g3, g4⟩ := drain_step ms _ k _ hp hlen h3
  rw [runStream_append]
  simp only [runStream, List.append_nil]
  rw [h2, g2, ← take_add']
  apply (List.take_prefix_take_left ?_)
  by_contra hc
  have hlt : k + i < ms.length := by omega
  have hm := g4.1 ms[k + i] (by simp [hlt])
  have e1 := congrArg List.length g3.2.2
  have e2 := harr.length_le
  have e3 : ms.take j = ms.take (k + i) ++ (ms[k + i] :: (ms.drop (k + i + 1)).take (j - (k + i) - 1)) := by
    have hd : ms.drop (k + i) = ms[k + i] :: ms.drop (k + i + 1) := List.drop_eq_getElem_cons hlt
    have : j = (k + i) + (j - (k + i) - 1 + 1) := by omega
    nth_rewrite 1 [this]
    rw [take_add', hd, List.take_succ_cons]
  rw [e3, framesOf_append, framesOf_cons] at e2
  simp only [List.length_append] at e1 e2
  omega

/-- **C36**: once the whole stream has been pushed and drained, exactly the messages were delivered
and no byte is held. -/
theorem C36_complete (ms : List (List Nat)) (hlen : (framesOf ms).length < 2 ^ 64)
    (ops : List StreamOp) (hp : pushedBytes ops = framesOf ms) :
    (runStream Deframer.new (ops ++ [.drain])).1 = ms ∧
      (runStream Deframer.new (ops ++ [.drain])).2.isEmpty = true ∧
      (runStream Deframer.new (ops ++ [.drain])).2.pending = 0 := by
  have hb : pushedBytes (ops ++ [.drain]) = framesOf ms := by
    rw [pushedBytes_append]; simp [pushedBytes, hp]
  have h1 := C36_not_late ms hlen ops (by rw [hp]) ms.length (by simp)
    (by rw [List.take_length, hp])
  obtain ⟨k, h2, h3, h4, h5⟩ := C36_delivers_in_order ms hlen (ops ++ [.drain]) (by rw [hb])
  rw [List.take_length, h3] at h1
  have hl := h1.length_le
  rw [List.length_take] at hl
  have hk : k = ms.length := by omega
  subst hk
  rw [List.take_length] at h3 h5
  rw [hb] at h5
  have hpend : (runStream Deframer.new (ops ++ [.drain])).2.pending = 0 := by omega
  refine ⟨h3, ?_, hpend⟩
  unfold Deframer.pending at hpend
  unfold Deframer.isEmpty
  simp; omega

/-- Three messages, one of them empty, pushed a few bytes at a time. -/
example : framesOf [[7, 8], [], [9]] = [2, 7, 8, 0, 1, 9] ∧
    runStream Deframer.new [.push [2, 7], .drain, .push [8, 0, 1], .drain, .push [9], .drain] =
      ([[7, 8], [], [9]], ⟨[], 0⟩) ∧
    (runStream Deframer.new [.push [2, 7], .drain, .push [8, 0, 1], .drain]) =
      ([[7, 8], []], ⟨[1], 0⟩) := by
  refine ⟨?_, by decide +kernel, by decide +kernel⟩
  simp [framesOf, frameForStream, frameLen]

/-! ## C37 -/

/-- **C37**: encoding any value — integer, boolean, float bit pattern, text, list, or enum of the
program's schema, nested to any depth — and decoding it at its type gives the value back and stops
exactly at the end of its bytes, whatever follows them. -/
theorem C37_roundtrip (utf8 : List Nat → Bool) (env : Schema) (v : WVal) (t : WTy) (rest : List Nat)
    (h : HasTy utf8 env v t) : decode utf8 env t (encode v ++ rest) = some (v, rest) :=
  decode_encode utf8 env v t rest h

/-- A schema with one recursive enum `T = A { Int } | B { Seq of T, Text }` and a value of it. -/
example : let env : Schema := [([84], [([65], [.int]), ([66], [.list (.named [84]), .text])])]
    HasTy (fun _ => true) env
      (.data [84] [66] [.list [.data [84] [65] [.int (-5#64)], .data [84] [65] [.int 300#64]], .text [104, 105]])
      (.named [84]) := by
  simp [HasTy, AllTy, FieldsTy, lookupName]

/-- **C37**: on arbitrary bytes, a successful decode has read a non-empty prefix of the buffer and
nothing else: the same prefix followed by any other bytes decodes to the same value. -/
theorem C37_reads_prefix (utf8 : List Nat → Bool) (env : Schema) (t : WTy) (bs : List Nat) (v : WVal)
    (rest : List Nat) (h : decode utf8 env t bs = some (v, rest)) :
    ∃ used, used ≠ [] ∧ bs = used ++ rest ∧ ∀ rest', decode utf8 env t (used ++ rest') = some (v, rest') :=
  decode_prefixed utf8 env t bs v rest h

/-- Specification: the tag bytes a value of the type may start with, wire.rs's table. -/
def tagsOf : WTy → List Nat
  | .int => [3] | .bool => [1, 2] | .float => [4] | .text => [6] | .list _ => [13] | .named _ => [18]

/-- Specification: the value has the outer shape of the type, and a boolean matches its tag. -/
def Shaped (tag : Nat) : WVal → WTy → Prop
  | .int _, t => t = .int
  | .bool b, t => t = .bool ∧ (b = true ↔ tag = 2)
  | .float _, t => t = .float
  | .text _, t => t = .text
  | .list _, t => ∃ e, t = .list e
  | .data n _ _, t => t = .named n

theorem expectTag_some (t : Nat) (bs r : List Nat) (h : expectTag t bs = some r) : bs = t :: r := by
  cases bs with
  | nil => simp [expectTag] at h
  | cons b rest =>
    simp only [expectTag] at h
    split at h
    · rename_i hb; simp at h; rw [hb, h]
    · simp at h

/-- **C37**: bytes are accepted at a type only when they start with a tag of that type, and the
value returned has that type's shape; other tags are refused. -/
theorem C37_tags (utf8 : List Nat → Bool) (env : Schema) (t : WTy) (bs : List Nat) (v : WVal)
    (rest : List Nat) (h : decode utf8 env t bs = some (v, rest)) :
    ∃ tag more, bs = tag :: more ∧ tag ∈ tagsOf t ∧ Shaped tag v t := by
  unfold decode at h
  cases t with
  | int =>
    simp only [decodeF, decodeInt] at h
    cases h1 : expectTag 3 bs with
    | none => simp [h1] at h
    | some r =>
      simp only [h1] at h
      cases h2 : readUvarint r with
      | none => simp [h2] at h
      | some q => simp only [h2, Option.some.injEq, Prod.mk.injEq] at h
                  exact ⟨3, r, expectTag_some _ _ _ h1, by simp [tagsOf], by rw [← h.1]; rfl⟩
  | bool =>
    simp only [decodeF] at h
    cases bs with
    | nil => simp [decodeBool] at h
    | cons b r =>
      simp only [decodeBool] at h
      by_cases h2 : b = 2
      · simp only [h2, if_true, Option.some.injEq, Prod.mk.injEq] at h
        exact ⟨b, r, rfl, by simp [tagsOf, h2], by rw [← h.1]; exact ⟨rfl, by simp [h2]⟩⟩
      · by_cases h1 : b = 1
        · simp only [h1, OfNat.one_ne_ofNat, if_false, if_true, Option.some.injEq, Prod.mk.injEq] at h
          exact ⟨b, r, rfl, by simp [tagsOf, h1], by rw [← h.1]; exact ⟨rfl, by simp [h1]⟩⟩
        · simp [h1, h2] at h
  | float =>
    simp only [decodeF, decodeFloat] at h
    cases h1 : expectTag 4 bs with
    | none => simp [h1] at h
    | some r =>
      simp only [h1] at h
      cases h2 : takeBytes 8 r with
      | none => simp [h2] at h
      | some q => simp only [h2, Option.some.injEq, Prod.mk.injEq] at h
                  exact ⟨4, r, expectTag_some _ _ _ h1, by simp [tagsOf], by rw [← h.1]; rfl⟩
  | text =>
    simp only [decodeF, decodeText] at h
    cases h1 : expectTag 6 bs with
    | none => simp [h1] at h
    | some r =>
      simp only [h1] at h
      cases h2 : readStr utf8 r with
      | none => simp [h2] at h
      | some q => simp only [h2, Option.some.injEq, Prod.mk.injEq] at h
                  exact ⟨6, r, expectTag_some _ _ _ h1, by simp [tagsOf], by rw [← h.1]; rfl⟩
  | list e =>
    simp only [decodeF, decodeList] at h
    cases h1 : expectTag 13 bs with
    | none => simp [h1] at h
    | some r =>
      simp only [h1] at h
      cases h2 : readUvarint r with
      | none => simp [h2] at h
      | some q =>
        simp only [h2] at h
        cases h3 : decodeMany (decodeF utf8 env bs.length e) q.1 q.2 with
        | none => simp [h3] at h
        | some w => simp only [h3, Option.some.injEq, Prod.mk.injEq] at h
                    exact ⟨13, r, expectTag_some _ _ _ h1, by simp [tagsOf], by rw [← h.1]; exact ⟨e, rfl⟩⟩
  | named n =>
    simp only [decodeF] at h
    cases h0 : lookupName n env with
    | none => simp [h0] at h
    | some vs =>
      simp only [h0, decodeData] at h
      cases h1 : readHeader utf8 bs with
      | none => simp [h1] at h
      | some r =>
        simp only [h1] at h
        have h1' : ∃ r0, expectTag 18 bs = some r0 := by
          cases h9 : expectTag 18 bs with
          | none => simp [readHeader, h9] at h1
          | some r0 => exact ⟨r0, rfl⟩
        obtain ⟨r0, h9⟩ := h1'
        cases h2 : lookupName r.1.2.1 vs with
        | none => simp [h2] at h
        | some tys =>
          simp only [h2] at h
          cases h3 : decodeFields (decodeF utf8 env bs.length) tys r.2 with
          | none => simp [h3] at h
          | some w => simp only [h3, Option.some.injEq, Prod.mk.injEq] at h
                      exact ⟨18, r0, expectTag_some _ _ _ h9, by simp [tagsOf], by rw [← h.1]; rfl⟩

example : decode (fun _ => true) [] .bool [2, 9] = some (.bool true, [9]) ∧
    decode (fun _ => true) [] .bool [3, 9] = none := by
  constructor <;> simp [decode, decodeF, decodeBool]

/-- **C37**: an encoding cut short is refused, never misread. -/
theorem C37_truncated (utf8 : List Nat → Bool) (env : Schema) (v : WVal) (t : WTy) (h : HasTy utf8 env v t)
    (p : List Nat) (hp : p <+: encode v) (hne : p ≠ encode v) : decode utf8 env t p = none := by
  cases hd : decode utf8 env t p with
  | none => rfl
  | some r =>
    obtain ⟨w, rest⟩ := r
    obtain ⟨z, hz⟩ := hp
    obtain ⟨u, -, h1, h2⟩ := decode_prefixed utf8 env t _ _ _ hd
    have h3 := h2 (rest ++ z)
    have h4 := decode_encode utf8 env v t [] h
    rw [List.append_nil, ← hz, h1, List.append_assoc, h3] at h4
    simp only [Option.some.injEq, Prod.mk.injEq, List.append_eq_nil_iff] at h4
    exact absurd (by rw [← hz, h4.2.2]; simp) hne

/-- **C37**: two values of a type with the same bytes are the same value. -/
theorem C37_injective (utf8 : List Nat → Bool) (env : Schema) (v w : WVal) (t : WTy)
    (hv : HasTy utf8 env v t) (hw : HasTy utf8 env w t) (h : encode v = encode w) : v = w := by
  have h1 := decode_encode utf8 env v t [] hv
  have h2 := decode_encode utf8 env w t [] hw
  rw [h, h2] at h1
  simpa using h1.symm

/-- **C37**: the number sent for an integer is `2x` for `x ≥ 0` and `-2x-1` below, so small
magnitudes are short: at most one byte per seven bits. -/
theorem C37_int_bytes (x : BitVec 64) :
    ∃ u : Nat, (u : Int) = (if 0 ≤ x.toInt then 2 * x.toInt else -2 * x.toInt - 1) ∧
      encode (.int x) = 3 :: writeUvarint u ∧
      ∀ k, 1 ≤ k → (u < 128 ^ k ↔ (writeUvarint u).length ≤ k) := by
  refine ⟨(zigzag x).toNat, zigzag_toNat x, by simp [encode], ?_⟩
  generalize (zigzag x).toNat = u
  induction u using Nat.strongRecOn with
  | _ u ih =>
    intro k hk
    rw [writeUvarint]
    have e : u >>> 7 = u / 128 := Nat.shiftRight_eq_div_pow u 7
    by_cases h : 128 ≤ u
    · rw [dif_pos h, List.length_cons]
      obtain ⟨k, rfl⟩ : ∃ j, k = j + 1 := ⟨k - 1, by omega⟩
      by_cases h0 : k = 0
      · subst h0
        have := List.length_pos_iff.mpr (writeUvarint_ne_nil (u >>> 7))
        omega
      · rw [Nat.succ_le_succ_iff, ← ih _ (by omega) k (by omega), e, Nat.pow_succ,
          Nat.div_lt_iff_lt_mul (by decide)]
    · rw [dif_neg h]
      have : 128 ^ 1 ≤ 128 ^ k := Nat.pow_le_pow_right (by decide) hk
      simp
      omega

/-- **C37**: the header of an enum value reads back. -/
theorem C37_header (utf8 : List Nat → Bool) (ty ctor rest : List Nat) (n : Nat)
    (ht : utf8 ty = true) (htl : ty.length < 2 ^ 64) (hc : utf8 ctor = true)
    (hcl : ctor.length < 2 ^ 64) (hn : n < 2 ^ 64) :
    readHeader utf8 (writeHeader ty ctor n ++ rest) = some ((ty, ctor, n), rest) :=
  readHeader_write utf8 ty ctor rest n ht htl hc hcl hn

example : readHeader (fun _ => true) (writeHeader [84] [65] 300 ++ [1, 2]) = some (([84], [65], 300), [1, 2]) :=
  C37_header _ _ _ _ _ rfl (by decide) rfl (by decide) (by decide)

mutual
theorem encode_bytes (v : WVal) (utf8 : List Nat → Bool) (env : Schema) (t : WTy)
    (hu : ∀ s, utf8 s = true → ∀ b ∈ s, b < 256) (h : HasTy utf8 env v t) : ∀ b ∈ encode v, b < 256 := by
  have huv : ∀ x, ∀ b ∈ writeUvarint x, b < 256 := by
    intro x
    induction x using Nat.strongRecOn with
    | _ x ih =>
      rw [writeUvarint]
      by_cases h : 128 ≤ x
      · rw [dif_pos h, or128]
        intro b hb
        rcases List.mem_cons.mp hb with rfl | hb
        · omega
        · refine ih _ ?_ b hb
          rw [Nat.shiftRight_eq_div_pow]; omega
      · rw [dif_neg h]; simp; omega
  have hle : ∀ k x, ∀ b ∈ leBytes k x, b < 256 := by
    intro k
    induction k with
    | zero => simp [leBytes]
    | succ k ih =>
      intro x b hb
      rcases List.mem_cons.mp hb with rfl | hb
      · omega
      · exact ih _ _ hb
  have hstr : ∀ s, utf8 s = true → ∀ b ∈ writeStr s, b < 256 := by
    intro s hs b hb
    rcases List.mem_append.mp hb with hb | hb
    · exact huv _ _ hb
    · exact hu s hs b hb
  match v with
  | .int x => intro b hb; simp only [encode, List.mem_cons] at hb
              rcases hb with rfl | hb
              · omega
              · exact huv _ _ hb
  | .bool x => intro b hb; simp only [encode, List.mem_singleton] at hb; subst hb; split <;> omega
  | .float x => intro b hb; simp only [encode, List.mem_cons] at hb
                rcases hb with rfl | hb
                · omega
                · exact hle _ _ _ hb
  | .text s =>
    simp only [HasTy] at h
    intro b hb; simp only [encode, List.mem_cons] at hb
    rcases hb with rfl | hb
    · omega
    · exact hstr _ h.2.1 _ hb
  | .list vs =>
    simp only [HasTy] at h
    obtain ⟨e, -, -, h⟩ := h
    intro b hb; simp only [encode, List.mem_cons, List.mem_append] at hb
    rcases hb with rfl | hb | hb
    · omega
    · exact huv _ _ hb
    · exact encodeAll_bytes vs utf8 env hu (fun v hv => allTy_mem vs utf8 env e h v hv) b hb
  | .data n c args =>
    simp only [HasTy] at h
    obtain ⟨-, h1, -, h2, -, -, _, tys, -, -, h3⟩ := h
    intro b hb; simp only [encode, writeHeader, List.mem_cons, List.mem_append] at hb
    rcases hb with (rfl | (hb | hb) | hb) | hb
    · omega
    · exact hstr _ h1 _ hb
    · exact hstr _ h2 _ hb
    · exact huv _ _ hb
    · exact encodeAll_bytes args utf8 env hu (fun v hv => fieldsTy_mem args utf8 env tys h3 v hv) b hb
theorem encodeAll_bytes (vs : List WVal) (utf8 : List Nat → Bool) (env : Schema)
    (hu : ∀ s, utf8 s = true → ∀ b ∈ s, b < 256) (h : ∀ v ∈ vs, ∃ t, HasTy utf8 env v t) :
    ∀ b ∈ encodeAll vs, b < 256 := by
  match vs with
  | [] => simp [encodeAll]
  | v :: vs =>
    intro b hb
    simp only [encodeAll, List.mem_append] at hb
    obtain ⟨t, ht⟩ := h v (by simp)
    rcases hb with hb | hb
    · exact encode_bytes v utf8 env t hu ht b hb
    · exact encodeAll_bytes vs utf8 env hu (fun w hw => h w (by simp [hw])) b hb
theorem allTy_mem (vs : List WVal) (utf8 : List Nat → Bool) (env : Schema) (t : WTy)
    (h : AllTy utf8 env vs t) : ∀ v ∈ vs, ∃ t, HasTy utf8 env v t := by
  match vs with
  | [] => simp
  | v :: vs =>
    simp only [AllTy] at h
    intro w hw
    rcases List.mem_cons.mp hw with rfl | hw
    · exact ⟨t, h.1⟩
    · exact allTy_mem vs utf8 env t h.2 w hw
theorem fieldsTy_mem (vs : List WVal) (utf8 : List Nat → Bool) (env : Schema) (ts : List WTy)
    (h : FieldsTy utf8 env vs ts) : ∀ v ∈ vs, ∃ t, HasTy utf8 env v t := by
  match vs with
  | [] => simp
  | v :: vs =>
    simp only [FieldsTy] at h
    obtain ⟨t, rest, -, h1, h2⟩ := h
    intro w hw
    rcases List.mem_cons.mp hw with rfl | hw
    · exact ⟨t, h1⟩
    · exact fieldsTy_mem vs utf8 env rest h2 w hw
end

/-- **C37**: what is written is bytes. -/
theorem C37_bytes (v : WVal) (utf8 : List Nat → Bool) (env : Schema) (t : WTy)
    (hu : ∀ s, utf8 s = true → ∀ b ∈ s, b < 256) (h : HasTy utf8 env v t) :
    ∀ b ∈ encode v, b < 256 := encode_bytes v utf8 env t hu h

/-- The reader's comment promises `None` on a number over 64 bits.  **That fails**: ten bytes that
spell `2^64 + 2^63 - 1` are accepted as `2^63 - 1`. -/
theorem C37_overlong_fails :
    readUvarint [255, 255, 255, 255, 255, 255, 255, 255, 255, 2] = some (2 ^ 63 - 1, []) := by
  decide +kernel

end Verif.Props
