import Verif.Store.Inv
import Verif.Crdt.CounterLemmas
import Mathlib.Algebra.BigOperators.Group.Finset.Piecewise
/-!
# A persistent `GCounter`: its `bincode` bytes, and histories of increments
-/
namespace Verif.Store
open Verif.Crdt

/-- A `w`-byte little-endian integer, as `bincode` 1.3 writes it (fixed-width encoding). -/
def leInt : Nat → Nat → Bytes
  | 0, _ => []
  | w + 1, x => BitVec.ofNat 8 x :: leInt w (x / 256)

/-- Reading a `w`-byte little-endian integer; `none` at the end of the input. -/
def readInt : Nat → Bytes → Option (Nat × Bytes)
  | 0, bs => some (0, bs)
  | _ + 1, [] => none
  | w + 1, b :: bs =>
    match readInt w bs with
    | none => none
    | some (x, rest) => some (b.toNat + 256 * x, rest)

/-- The pairs of a `HashMap<u64, u64>` in iteration order. -/
def pairBytes (e : Nat × Nat) : Bytes := leInt 8 e.1 ++ leInt 8 e.2

/-- The derived `Serialize` of `GCounter` (gcounter.rs:19-25) under `bincode`: the map's length, its
pairs, the replica id. -/
def counterBytes (g : GCounter) : Bytes :=
  leInt 8 g.counts.entries.length ++ (g.counts.entries.flatMap pairBytes ++ leInt 8 g.replicaId)

/-- The pairs read back, inserted one by one into a `HashMap`. -/
def readPairs : Nat → Bytes → HMap Rid Nat → Option (HMap Rid Nat × Bytes)
  | 0, bs, m => some (m, bs)
  | n + 1, bs, m =>
    match readInt 8 bs with
    | none => none
    | some (k, bs) =>
      match readInt 8 bs with
      | none => none
      | some (v, bs) => readPairs n bs (m.insert k v)

/-- The derived `Deserialize` of `GCounter` under `bincode`; bytes left over are allowed. -/
def readCounter (bs : Bytes) : Option GCounter :=
  match readInt 8 bs with
  | none => none
  | some (n, bs) =>
    match readPairs n bs .empty with
    | none => none
    | some (m, bs) =>
      match readInt 8 bs with
      | none => none
      | some (r, _) => some ⟨m, r⟩

/-- `bincode::serialize`/`deserialize` of `JournalOp<GCounter>`: a four-byte variant number first. -/
def counterCodec : Codec GCounter where
  ser
    | .snapshot g => leInt 4 0 ++ counterBytes g
    | .delta g => leInt 4 1 ++ counterBytes g
  de bs :=
    match readInt 4 bs with
    | some (0, rest) => (readCounter rest).map .snapshot
    | some (1, rest) => (readCounter rest).map .delta
    | _ => none

/-- Two counters a program cannot tell apart except by the replica id new increments go to. -/
def SameCounts (a b : GCounter) : Prop :=
  HMap.Same a.counts b.counts ∧ (a.replicaId < 2 ^ 64 ↔ b.replicaId < 2 ^ 64)

/-- What can happen to a process that keeps a persistent `GCounter`. -/
inductive CountEv
  | increment (amount : Nat)
  | compact
  | restart (id : Rid)
  | crashIncrement (amount k : Nat) (id : Rid)
  | crashCompact (renamed : Bool) (k : Nat) (id : Rid)

/-- The corresponding event of the storage layer. -/
def CountEv.ev : CountEv → Ev GCounter
  | .increment n => .mutate (GCounter.increment n)
  | .compact => .compact
  | .restart id => .restart (.new id)
  | .crashIncrement n k id => .crashMutate (GCounter.increment n) k (.new id)
  | .crashCompact r k id => .crashCompact r k (.new id)

/-- The sum of the acknowledged increments. -/
def ackedSum : List CountEv → Nat
  | [] => 0
  | .increment n :: es => n + ackedSum es
  | _ :: es => ackedSum es

/-- The sum of the increments that were interrupted by a crash. -/
def crashedSum : List CountEv → Nat
  | [] => 0
  | .crashIncrement n _ _ :: es => n + crashedSum es
  | _ :: es => crashedSum es

/-- All replica ids drawn at the mounts of a history fit in a `u64`. -/
def idsFit : List CountEv → Prop
  | [] => True
  | .restart id :: es => id < 2 ^ 64 ∧ idsFit es
  | .crashIncrement _ _ id :: es => id < 2 ^ 64 ∧ idsFit es
  | .crashCompact _ _ id :: es => id < 2 ^ 64 ∧ idsFit es
  | _ :: es => idsFit es

/-! ## The encoding reads back -/

theorem leInt_length (w x : Nat) : (leInt w x).length = w := by
  induction w generalizing x with
  | zero => rfl
  | succ w ih => simp [leInt, ih]

theorem readInt_leInt (w x : Nat) (rest : Bytes) (h : x < 256 ^ w) :
    readInt w (leInt w x ++ rest) = some (x, rest) := by
  induction w generalizing x with
  | zero => simp at h; subst h; rfl
  | succ w ih =>
    have : x / 256 < 256 ^ w := by
      rw [Nat.div_lt_iff_lt_mul (by decide)]; rw [Nat.pow_succ] at h; exact h
    simp only [leInt, List.cons_append, readInt, ih _ this, BitVec.toNat_ofNat]
    congr 2
    omega

theorem insertList_append {k v : Nat} {l : List (Nat × Nat)} (h : k ∉ l.map Prod.fst) :
    HMap.insertList k v l = l ++ [(k, v)] := by
  induction l with
  | nil => rfl
  | cons e t ih =>
    obtain ⟨k', v'⟩ := e
    simp only [List.map_cons, List.mem_cons, not_or] at h
    have hne : ¬ k' = k := fun e => h.1 e.symm
    simp only [HMap.insertList, if_neg hne, ih h.2, List.cons_append]

theorem readPairs_flat (l : List (Nat × Nat)) (m : HMap Rid Nat) (rest : Bytes)
    (hb : ∀ e ∈ l, e.1 < 2 ^ 64 ∧ e.2 < 2 ^ 64) (nd : ((m.entries ++ l).map Prod.fst).Nodup) :
    readPairs l.length (l.flatMap pairBytes ++ rest) m = some (⟨m.entries ++ l, nd⟩, rest) := by
  induction l generalizing m with
  | nil => simp only [List.length_nil, List.flatMap_nil, List.nil_append, readPairs, List.append_nil]
  | cons e l ih =>
    obtain ⟨k, v⟩ := e
    have hkv := hb (k, v) (by simp)
    simp only [List.length_cons, List.flatMap_cons, pairBytes, List.append_assoc, readPairs]
    rw [readInt_leInt 8 k _ (by have := hkv.1; simp only at this; omega)]
    simp only
    rw [readInt_leInt 8 v _ (by have := hkv.2; simp only at this; omega)]
    simp only
    have hk : k ∉ m.entries.map Prod.fst := by
      intro hmem
      rw [List.map_append, List.nodup_append] at nd
      exact nd.2.2 k hmem k (by simp) rfl
    have he : (m.insert k v).entries = m.entries ++ [(k, v)] := insertList_append hk
    have nd' : (((m.insert k v).entries ++ l).map Prod.fst).Nodup := by
      rw [he, List.append_assoc]; exact nd
    have := ih (m.insert k v) (fun e he => hb e (by simp [he])) nd'
    rw [this]
    congr 3
    rw [he, List.append_assoc]; rfl

/-- A counter whose numbers fit in `u64`. -/
def CounterFits (g : GCounter) : Prop :=
  (∀ e ∈ g.counts.entries, e.1 < 2 ^ 64 ∧ e.2 < 2 ^ 64) ∧ g.replicaId < 2 ^ 64 ∧
    20 + 16 * g.counts.entries.length < 2 ^ 32

theorem readCounter_bytes {g : GCounter} (h : CounterFits g) : readCounter (counterBytes g) = some g := by
  obtain ⟨h1, h2, h3⟩ := h
  obtain ⟨⟨l, nd⟩, r⟩ := g
  simp only at h1 h2 h3
  simp only [readCounter, counterBytes]
  rw [readInt_leInt 8 _ _ (by omega)]
  simp only
  rw [readPairs_flat l .empty _ h1 (by simpa [HMap.empty] using nd)]
  simp only
  have e := readInt_leInt 8 r [] (by omega)
  rw [List.append_nil] at e
  rw [e]
  simp [HMap.empty]

theorem pairs_length (l : List (Nat × Nat)) : (l.flatMap pairBytes).length = 16 * l.length := by
  induction l with
  | nil => rfl
  | cons e l ih => simp only [List.flatMap_cons, List.length_append, ih, pairBytes, leInt_length, List.length_cons]; omega

theorem fits_counter {g : GCounter} (h : CounterFits g) (b : Bool) :
    Fits counterCodec (if b then .snapshot g else .delta g) := by
  have hl : (counterBytes g).length = 16 + 16 * g.counts.entries.length := by
    simp only [counterBytes, List.length_append, pairs_length, leInt_length]; omega
  cases b
  · refine ⟨?_, ?_⟩
    · simp only [counterCodec, Bool.false_eq_true, if_false]
      rw [readInt_leInt 4 1 _ (by decide)]
      simp [readCounter_bytes h]
    · simp only [counterCodec, Bool.false_eq_true, if_false, List.length_append, leInt_length, hl]
      have := h.2.2; omega
  · refine ⟨?_, ?_⟩
    · simp only [counterCodec, if_true]
      rw [readInt_leInt 4 0 _ (by decide)]
      simp [readCounter_bytes h]
    · simp only [counterCodec, if_true, List.length_append, leInt_length, hl]
      have := h.2.2; omega

/-! ## Counters as a lawful value type -/

theorem sameCounts_equiv : Equivalence SameCounts :=
  ⟨fun _ => ⟨fun _ => rfl, Iff.rfl⟩, fun h => ⟨fun k => (h.1 k).symm, h.2.symm⟩,
    fun h h' => ⟨fun k => (h.1 k).trans (h'.1 k), h.2.trans h'.2⟩⟩

theorem grows_increment (n : Nat) (a : GCounter) :
    Grows GCounter.merge SameCounts a (a.increment n) := by
  intro r ⟨hr, hid⟩
  refine ⟨fun k => ?_, hid⟩
  simp only [GCounter.merge, mergeCounts]
  rw [HMap.fold_upsert_get? _ _ 0 (fun x y => max x y)]
  simp only [GCounter.increment, HMap.get?_upsert]
  by_cases hk : k = a.replicaId
  · subst hk
    have : r.counts.getD a.replicaId 0 = a.counts.getD a.replicaId 0 := by simp only [HMap.getD, hr a.replicaId]
    simp [this]
  · simp only [hk, if_false, HMap.getD, hr k]
    cases a.counts.get? k <;> simp

theorem same_getD {a b : GCounter} (h : SameCounts a b) (k : Rid) : a.counts.getD k 0 = b.counts.getD k 0 := by
  simp only [HMap.getD, h.1 k]

theorem same_value {a b : GCounter} (h : SameCounts a b) : a.value = b.value :=
  values_sum_congr _ _ (same_getD h)

theorem value_increment (n : Nat) (a : GCounter) : (a.increment n).value = a.value + n := by
  unfold GCounter.value
  rw [values_sum (a.increment n).counts ((a.increment n).counts.keys.toFinset ∪ {a.replicaId} ∪ a.counts.keys.toFinset)
      (by
        intro k hk
        simp only [Finset.mem_union, List.mem_toFinset]
        by_contra hc
        simp only [not_or] at hc
        simp [HMap.getD, HMap.get?_eq_none.2 hc.1.1] at hk),
    values_sum a.counts ((a.increment n).counts.keys.toFinset ∪ {a.replicaId} ∪ a.counts.keys.toFinset)
      (by
        intro k hk
        simp only [Finset.mem_union, List.mem_toFinset]
        by_contra hc
        simp only [not_or] at hc
        simp [HMap.getD, HMap.get?_eq_none.2 hc.2] at hk)]
  have h : ∀ k, (a.increment n).counts.getD k 0 = a.counts.getD k 0 + if k = a.replicaId then n else 0 := by
    intro k
    simp only [GCounter.increment, HMap.getD_upsert]
    split <;> simp
  simp only [h, Finset.sum_add_distrib]
  congr 1
  rw [Finset.sum_ite_eq' _ a.replicaId]
  simp

/-- The numbers of a counter fit, with room to spare. -/
def Room (total size : Nat) (g : GCounter) : Prop :=
  (∀ e ∈ g.counts.entries, e.1 < 2 ^ 64) ∧ g.replicaId < 2 ^ 64 ∧ g.value ≤ total ∧
    g.counts.entries.length ≤ size

theorem le_value {g : GCounter} {e : Nat × Nat} (h : e ∈ g.counts.entries) : e.2 ≤ g.value :=
  List.le_sum_of_mem (List.mem_map.2 ⟨e, h, rfl⟩)

theorem Room.fits {t n : Nat} {g : GCounter} (h : Room t n g) (ht : t < 2 ^ 64) (hn : 20 + 16 * n < 2 ^ 32) :
    CounterFits g := by
  obtain ⟨h1, h2, h3, h4⟩ := h
  exact ⟨fun e he => ⟨h1 e he, by have := le_value he; omega⟩, h2, by omega⟩

theorem length_insertList (k v : Nat) (l : List (Nat × Nat)) : (HMap.insertList k v l).length ≤ l.length + 1 := by
  induction l with
  | nil => simp [HMap.insertList]
  | cons e t ih =>
    obtain ⟨k', v'⟩ := e
    simp only [HMap.insertList]
    split <;> simp [ih]

theorem Room.increment {t n a : Nat} {g : GCounter} (h : Room t n g) : Room (t + a) (n + 1) (g.increment a) := by
  obtain ⟨h1, h2, h3, h4⟩ := h
  refine ⟨?_, h2, by rw [value_increment]; omega, ?_⟩
  · intro e he
    have : e.1 ∈ (HMap.insertList g.replicaId (g.counts.getD g.replicaId 0 + a) g.counts.entries).map Prod.fst :=
      List.mem_map.2 ⟨e, he, rfl⟩
    rw [HMap.mem_keys_insertList] at this
    rcases this with h | h
    · rw [h]; exact h2
    · obtain ⟨e', he', hk⟩ := List.mem_map.1 h
      rw [← hk]; exact h1 e' he'
  · have := length_insertList g.replicaId (g.counts.getD g.replicaId 0 + a) g.counts.entries
    show (HMap.insertList g.replicaId (g.counts.getD g.replicaId 0 + a) g.counts.entries).length ≤ n + 1
    omega

theorem Room.mono {t t' n n' : Nat} {g : GCounter} (h : Room t n g) (ht : t ≤ t') (hn : n ≤ n') : Room t' n' g :=
  ⟨h.1, h.2.1, Nat.le_trans h.2.2.1 ht, Nat.le_trans h.2.2.2 hn⟩

theorem same_perm {a b : HMap Rid Nat} (h : HMap.Same a b) : a.entries.Perm b.entries := by
  have na : a.entries.Nodup := List.Nodup.of_map _ a.nodup
  have nb : b.entries.Nodup := List.Nodup.of_map _ b.nodup
  rw [List.perm_ext_iff_of_nodup na nb]
  rintro ⟨k, v⟩
  rw [← HMap.get?_eq_some, ← HMap.get?_eq_some, h k]

theorem Room.same {t n : Nat} {g g' : GCounter} (h : Room t n g) (hs : SameCounts g' g) : Room t n g' := by
  have hp := same_perm hs.1
  exact ⟨fun e he => h.1 e (hp.mem_iff.1 he), hs.2.2 h.2.1, by rw [same_value hs]; exact h.2.2.1,
    by rw [hp.length_eq]; exact h.2.2.2⟩

theorem same_new {i j : Rid} (hi : i < 2 ^ 64) (hj : j < 2 ^ 64) : SameCounts (.new i) (.new j) :=
  ⟨fun _ => rfl, by simp only [GCounter.new, hi, hj]⟩

theorem room_delta {t n : Nat} {g : GCounter} (h : Room t n g) (ht : t < 2 ^ 64) (hn : 20 + 16 * n < 2 ^ 32) :
    Fits counterCodec (.delta g) := fits_counter (h.fits ht hn) false

theorem room_snapshot {t n : Nat} {g : GCounter} (h : Room t n g) (ht : t < 2 ^ 64)
    (hn : 20 + 16 * n < 2 ^ 32) : Fits counterCodec (.snapshot g) := fits_counter (h.fits ht hn) true

theorem ok_inj {A : Type} {a b : A} (h : Res.ok a = Res.ok b) : a = b := by cases h; rfl

theorem counter_lawful {d0 : GCounter} {i : Rid} (hd0 : d0 = .new i) (hi : i < 2 ^ 64) : ∀ (es : List CountEv) (b : Bool)
    (x : Node GCounter) (t n : Nat),
    Holds counterCodec GCounter.merge SameCounts d0 b x.mem x.count x.file → Room t n x.mem →
    idsFit es → t + ackedSum es + crashedSum es < 2 ^ 64 → 20 + 16 * (n + es.length) < 2 ^ 32 →
    tornFree b (es.map CountEv.ev) → Lawful counterCodec GCounter.merge SameCounts d0 x (es.map CountEv.ev) := by
  intro es
  induction es with
  | nil => intro b x t n _ _ _ _ _ _; trivial
  | cons e es ih =>
    intro b x t n h hr hid ht hn hf
    simp only [List.length_cons] at hn
    cases e with
    | increment a =>
      simp only [ackedSum, crashedSum] at ht
      have hfit : Fits counterCodec (.delta (x.mem.increment a)) := room_delta (hr.increment (a := a)) (by omega) (by omega)
      obtain ⟨rfl, hf⟩ := hf
      refine ⟨⟨grows_increment a x.mem, hfit⟩, ?_⟩
      intro y hy
      have hy := ok_inj hy
      subst hy
      exact ih false _ (t + a) (n + 1) (h.append (grows_increment a x.mem) hfit) hr.increment hid
        (by omega) (by omega) hf
    | compact =>
      simp only [ackedSum, crashedSum] at ht
      have hfit := room_snapshot hr (by omega) (by omega)
      refine ⟨hfit, ?_⟩
      intro y hy
      have hy := ok_inj hy
      subst hy
      exact ih false _ t n (.snapshot sameCounts_equiv hfit) hr hid (by omega) (by omega) hf
    | restart id =>
      simp only [ackedSum, crashedSum] at ht
      have hs : SameCounts (.new id) d0 := by rw [hd0]; exact same_new hid.1 hi
      refine ⟨hs, ?_⟩
      intro y hy
      obtain ⟨m, em, hm, hh⟩ := h.boot (.new id) hs x.temp sameCounts_equiv
      have hy := ok_inj (hy.symm.trans em)
      subst hy
      exact ih b _ t n hh (hr.same hm) hid.2 (by omega) (by omega) hf
    | crashIncrement a k id =>
      simp only [ackedSum, crashedSum] at ht
      obtain ⟨rfl, hf⟩ := hf
      have hs : SameCounts (.new id) d0 := by rw [hd0]; exact same_new hid.1 hi
      have hfit : Fits counterCodec (.delta (x.mem.increment a)) := room_delta (hr.increment (a := a)) (by omega) (by omega)
      have hok : EvOk counterCodec GCounter.merge SameCounts d0 x
        (.crashMutate (GCounter.increment a) k (.new id)) := ⟨grows_increment a x.mem, hfit, hs⟩
      refine ⟨hok, ?_⟩
      intro y hy
      obtain ⟨m, em, hh, h1, h2⟩ := crash_cases sameCounts_equiv h hok
      have hy := ok_inj (hy.symm.trans em)
      subst hy
      refine ih true _ (t + a) (n + 1) hh ?_ hid.2 (by omega) (by omega) hf
      by_cases hk : k < (entry counterCodec (.delta (x.mem.increment a))).length
      · exact (hr.same (h1 hk)).mono (by omega) (by omega)
      · exact hr.increment.same (h2 hk)
    | crashCompact r k id =>
      simp only [ackedSum, crashedSum] at ht
      have hs : SameCounts (.new id) d0 := by rw [hd0]; exact same_new hid.1 hi
      have hfit := room_snapshot hr (by omega) (by omega)
      refine ⟨⟨hfit, hs⟩, ?_⟩
      intro y hy
      cases r with
      | true =>
        obtain ⟨m, em, hm, hh⟩ := (Holds.snapshot (c := counterCodec) (merge := GCounter.merge)
          (d0 := d0) sameCounts_equiv hfit).boot (.new id) hs none sameCounts_equiv
        have hy := ok_inj (hy.symm.trans em)
        subst hy
        simp only [List.map_cons, CountEv.ev, tornFree, Bool.not_true, Bool.and_false] at hf
        exact ih false _ t n hh (hr.same hm) hid.2 (by omega) (by omega) hf
      | false =>
        obtain ⟨m, em, hm, hh⟩ := h.boot (.new id) hs _ sameCounts_equiv
        have hy := ok_inj (hy.symm.trans em)
        subst hy
        simp only [List.map_cons, CountEv.ev, tornFree, Bool.not_false, Bool.and_true] at hf
        exact ih b _ t n hh (hr.same hm) hid.2 (by omega) (by omega) hf

/-- The value after a history of increments lies between what was acknowledged and that plus what was
interrupted. -/
theorem recovers_value : ∀ (es : List CountEv) (s y : GCounter),
    Recovers SameCounts s (es.map CountEv.ev) y →
    s.value + ackedSum es ≤ y.value ∧ y.value ≤ s.value + ackedSum es + crashedSum es := by
  intro es
  induction es with
  | nil => intro s y h; cases h with | nil h => simp [ackedSum, crashedSum, same_value h]
  | cons e es ih =>
    intro s y h
    cases e with
    | increment a =>
      cases h with
      | mutate hs h =>
        have := ih _ _ h
        rw [value_increment, ← same_value hs] at this
        simp only [ackedSum, crashedSum]; omega
    | compact => cases h with | compact h => exact ih _ _ h
    | restart id => cases h with | restart h => exact ih _ _ h
    | crashIncrement a k id =>
      cases h with
      | crashLost h => have := ih _ _ h; simp only [ackedSum, crashedSum]; omega
      | crashKept hs h =>
        have := ih _ _ h
        rw [value_increment, ← same_value hs] at this
        simp only [ackedSum, crashedSum]; omega
    | crashCompact r k id => cases h with | crashCompact h => exact ih _ _ h

end Verif.Store
