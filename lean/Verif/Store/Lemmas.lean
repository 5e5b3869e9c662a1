import Verif.Store.Spec
namespace Verif.Store
variable {T : Type} {c : Codec T} {merge : T → T → T}

theorem u32_roundtrip (x : BitVec 32) :
    u32Of (x.extractLsb' 0 8) (x.extractLsb' 8 8) (x.extractLsb' 16 8) (x.extractLsb' 24 8) = x := by
  unfold u32Of
  ext i hi
  simp only [BitVec.getElem_append, BitVec.getElem_extractLsb']
  repeat' split
  all_goals simp only [BitVec.getElem_eq_testBit_toNat, BitVec.getLsbD]
  all_goals congr 1; omega

theorem ofNat_toNat_small {n : Nat} (h : n < 2 ^ 32) : (BitVec.ofNat 32 n).toNat = n := by
  rw [BitVec.toNat_ofNat]; exact Nat.mod_eq_of_lt h

/-- A whole entry at the front is read back. -/
theorem nextEntry_entry {op : Op T} (h : Fits c op) (n : Nat) (tail : Bytes) :
    nextEntry c n (entry c op ++ tail) = .op op tail := by
  obtain ⟨h1, h2⟩ := h
  simp only [entry, header, u32Bytes, List.cons_append, List.nil_append]
  unfold nextEntry
  simp only [u32_roundtrip, ofNat_toNat_small h2, List.length_append]
  rw [if_neg (by omega)]
  rw [List.take_left, List.drop_left]
  simp [openPayload, h1]

/-- A cut-off entry at the end stops the replay. -/
theorem nextEntry_prefix {op : Op T} (h : Fits c op) (n : Nat) {k : Nat} (hk : k < (entry c op).length) :
    nextEntry c n ((entry c op).take k) = .stop := by
  obtain ⟨h1, h2⟩ := h
  have hl : (entry c op).length = 8 + (c.ser op).length := by
    simp [entry, header, u32Bytes]; omega
  by_cases hs : k < 8
  · have hlen : ((entry c op).take k).length < 8 := by rw [List.length_take]; omega
    generalize (entry c op).take k = l at hlen
    unfold nextEntry
    split
    · simp only [List.length_cons] at hlen; omega
    · rfl
  · obtain ⟨j, rfl⟩ : ∃ j, k = j + 8 := ⟨k - 8, by omega⟩
    simp only [entry, header, u32Bytes, List.cons_append, List.nil_append, List.take_succ_cons]
    unfold nextEntry
    simp only [u32_roundtrip, ofNat_toNat_small h2, List.length_take]
    rw [if_pos (by omega)]

theorem nextEntry_nil (n : Nat) : nextEntry c n [] = .stop := rfl

theorem entry_length (op : Op T) : (entry c op).length = 8 + (c.ser op).length := by
  simp [entry, header, u32Bytes]; omega

/-- Bytes that end the replay. -/
def Stops (c : Codec T) (tail : Bytes) : Prop := ∀ n, nextEntry c n tail = .stop

theorem stops_nil : Stops c [] := fun _ => rfl

theorem replayLoop_journal (ops : List (Op T)) (hf : ∀ o ∈ ops, Fits c o) {tail : Bytes}
    (ht : Stops c tail) (fuel : Nat) (hfu : ops.length ≤ fuel) (s : T) (n : Nat) :
    replayLoop c merge fuel (ops.flatMap (entry c) ++ tail) s n =
      .ok (ops.foldl (fun a o => o.apply merge a) s, n + ops.length) := by
  induction ops generalizing fuel s n with
  | nil =>
    cases fuel with
    | zero => rfl
    | succ f => simp only [List.flatMap_nil, List.nil_append, replayLoop, ht n]; rfl
  | cons o ops ih =>
    cases fuel with
    | zero => simp at hfu
    | succ f =>
      simp only [List.length_cons] at hfu
      simp only [List.flatMap_cons, List.append_assoc, replayLoop,
        nextEntry_entry (hf o (by simp))]
      rw [ih (fun o' ho => hf o' (by simp [ho])) f (by omega)]
      simp only [List.foldl_cons, List.length_cons]
      congr 2; omega

theorem length_journal (ops : List (Op T)) : ops.length ≤ (ops.flatMap (entry c)).length := by
  induction ops with
  | nil => simp
  | cons o ops ih => simp only [List.flatMap_cons, List.length_append, List.length_cons, entry_length]; omega

theorem replay_journal_eq (ops : List (Op T)) (hf : ∀ o ∈ ops, Fits c o) {tail : Bytes}
    (ht : Stops c tail) (d : T) :
    replay c merge d (ops.flatMap (entry c) ++ tail) =
      .ok (ops.foldl (fun a o => o.apply merge a) d, ops.length) := by
  rw [replay, replayLoop_journal ops hf ht]
  · simp
  · rw [List.length_append]; have := length_journal (c := c) ops; omega

/-- A bad entry after whole ones fails the mount. -/
theorem mount_fail (before : List (Op T)) (hb : ∀ o ∈ before, Fits c o) {rest : Bytes}
    (hr : ∀ n, nextEntry c n rest = .fail (.corrupted n)) (d : T) :
    mount c merge d (some (before.flatMap (entry c) ++ rest)) = .err (.corrupted before.length) := by
  have hloop : ∀ (ops : List (Op T)) (fuel : Nat) (s : T) (n : Nat), (∀ o ∈ ops, Fits c o) →
      ops.length < fuel →
      replayLoop c merge fuel (ops.flatMap (entry c) ++ rest) s n = .err (.corrupted (n + ops.length)) := by
    intro ops
    induction ops with
    | nil =>
      intro fuel s n _ hf
      cases fuel with
      | zero => simp at hf
      | succ f => rw [List.flatMap_nil, List.nil_append, replayLoop, hr n]; rfl
    | cons o ops ih =>
      intro fuel s n hfit hf
      cases fuel with
      | zero => simp at hf
      | succ f =>
        simp only [List.length_cons] at hf
        rw [List.flatMap_cons, List.append_assoc, replayLoop, nextEntry_entry (hfit o (by simp))]
        simp only
        rw [ih f _ _ (fun o' ho => hfit o' (by simp [ho])) (by omega), List.length_cons]
        congr 2; omega
  have hne : rest ≠ [] := by
    intro e
    have := hr 0
    rw [e, nextEntry_nil] at this
    cases this
  have := List.length_pos_iff.2 hne
  have := length_journal (c := c) before
  rw [mount, replay, hloop before _ d 0 hb (by rw [List.length_append]; omega), Nat.zero_add]

end Verif.Store
