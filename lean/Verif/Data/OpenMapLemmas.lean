import Verif.Data.OpenMap
import Mathlib.Data.Finset.Card
import Mathlib.Data.List.GetD
import Mathlib.Data.Finset.Dedup
import Mathlib.Data.Nat.ModEq
import Mathlib.Tactic.Ring

/-! # Lemmas: the open-addressing maps -/
namespace Verif.Data
variable {w : Nat} {V : Type}

/-- A table size: a power of two above one, `mask = n - 1`. -/
def IsSize (n mask : Nat) : Prop := mask + 1 = n ∧ 1 < n ∧ ∃ b, n = 2 ^ b

theorem IsSize.and {n mask : Nat} (h : IsSize n mask) (x : Nat) : x &&& mask = x % n := by
  obtain ⟨h1, _, b, h3⟩ := h
  have : mask = 2 ^ b - 1 := by omega
  rw [this, Nat.and_two_pow_sub_one_eq_mod, h3]

theorem slotOf_lt {n mask : Nat} (h : IsSize n mask) (k : BitVec w) : slotOf mask k < n := by
  unfold slotOf
  simp only [h.and]
  exact Nat.mod_lt _ (by have := h.2.1; omega)

theorem mod_step (i j n : Nat) : ((i + 1) % n + j) % n = (i + (j + 1)) % n := by
  rw [Nat.mod_add_mod]; congr 1; omega

theorem probe_eq {n mask : Nat} (hs : IsSize n mask) (t : List (BitVec w × V)) (d : V) (key : BitVec w) :
    ∀ (fuel i j : Nat), i < n → j < fuel →
    ((slotAt t d ((i + j) % n)).1 = 0#w ∨ (slotAt t d ((i + j) % n)).1 = key) →
    (∀ j' < j, ¬ ((slotAt t d ((i + j') % n)).1 = 0#w ∨ (slotAt t d ((i + j') % n)).1 = key)) →
    probe t d mask key fuel i = some ((i + j) % n) := by
  intro fuel
  induction fuel with
  | zero => intro i j _ h; omega
  | succ fuel ih =>
    intro i j hi hj hP hN
    simp only [probe]
    cases j with
    | zero =>
      rw [Nat.add_zero, Nat.mod_eq_of_lt hi] at hP
      rw [if_pos hP, Nat.add_zero, Nat.mod_eq_of_lt hi]
    | succ j =>
      have h0 := hN 0 (by omega)
      rw [Nat.add_zero, Nat.mod_eq_of_lt hi] at h0
      rw [if_neg h0, hs.and, ih ((i + 1) % n) j (Nat.mod_lt _ (by omega)) (by omega), mod_step]
      · rw [mod_step]; exact hP
      · intro j' hj'; rw [mod_step]; exact hN (j' + 1) (by omega)

theorem probeEmpty_eq {n mask : Nat} (hs : IsSize n mask) (t : List (BitVec w × V)) (d : V) :
    ∀ (fuel i j : Nat), i < n → j < fuel → (slotAt t d ((i + j) % n)).1 = 0#w →
    (∀ j' < j, (slotAt t d ((i + j') % n)).1 ≠ 0#w) →
    probeEmpty t d mask fuel i = some ((i + j) % n) := by
  intro fuel
  induction fuel with
  | zero => intro i j _ h; omega
  | succ fuel ih =>
    intro i j hi hj hP hN
    simp only [probeEmpty]
    cases j with
    | zero =>
      rw [Nat.add_zero, Nat.mod_eq_of_lt hi] at hP
      rw [if_neg (by simpa using hP), Nat.add_zero, Nat.mod_eq_of_lt hi]
    | succ j =>
      have h0 := hN 0 (by omega)
      rw [Nat.add_zero, Nat.mod_eq_of_lt hi] at h0
      rw [if_pos h0, hs.and, ih ((i + 1) % n) j (Nat.mod_lt _ (by omega)) (by omega), mod_step]
      · rw [mod_step]; exact hP
      · intro j' hj'; rw [mod_step]; exact hN (j' + 1) (by omega)

/-- Every position is some number of steps from any start. -/
theorem exists_steps {n i s : Nat} (hi : i < n) (hs : s < n) : ∃ j, j < n ∧ (s + j) % n = i := by
  by_cases h : s ≤ i
  · exact ⟨i - s, by omega, by rw [show s + (i - s) = i by omega]; exact Nat.mod_eq_of_lt hi⟩
  · refine ⟨i + n - s, by omega, ?_⟩
    rw [show s + (i + n - s) = i + n by omega, Nat.add_mod_right]; exact Nat.mod_eq_of_lt hi

theorem steps_inj {n s j j' : Nat} (hj : j < n) (hj' : j' < n) (h : (s + j) % n = (s + j') % n) :
    j = j' := by
  have : j % n = j' % n := Nat.ModEq.add_left_cancel' s h
  rwa [Nat.mod_eq_of_lt hj, Nat.mod_eq_of_lt hj'] at this

/-- The table's shape: its keys are distinct and each is reachable from its slot without crossing an
empty position. -/
structure TInv (t : List (BitVec w × V)) (d : V) (n mask : Nat) : Prop where
  size : IsSize n mask
  len : t.length = n
  reach : ∀ i < n, (slotAt t d i).1 ≠ 0#w → ∃ J < n, i = (slotOf mask (slotAt t d i).1 + J) % n ∧
    ∀ j < J, (slotAt t d ((slotOf mask (slotAt t d i).1 + j) % n)).1 ≠ 0#w
  uniq : ∀ i < n, ∀ i' < n, (slotAt t d i).1 ≠ 0#w → (slotAt t d i).1 = (slotAt t d i').1 → i = i'

/-- The number of used slots. -/
def used (t : List (BitVec w × V)) : Nat := t.countP fun e => decide (e.1 ≠ 0#w)

theorem exists_empty (t : List (BitVec w × V)) (d : V) (n : Nat) (hl : t.length = n) (hu : used t < n) :
    ∃ i < n, (slotAt t d i).1 = 0#w := by
  by_contra hc
  push Not at hc
  have : used t = t.length := by
    unfold used
    rw [List.countP_eq_length]
    intro e he
    obtain ⟨i, hi, rfl⟩ := List.mem_iff_getElem.mp he
    have := hc i (by omega)
    rw [slotAt, List.getD_eq_getElem _ _ hi] at this
    simpa using this
  omega

theorem slotAt_set (t : List (BitVec w × V)) (d : V) (p i : Nat) (e : BitVec w × V) (hp : p < t.length) :
    slotAt (t.set p e) d i = if p = i then e else slotAt t d i := by
  unfold slotAt
  rw [List.getD_eq_getElem?_getD, List.getElem?_set, List.getD_eq_getElem?_getD]
  split
  · simp [hp]
  · rfl

theorem slotAt_mem (t : List (BitVec w × V)) (d : V) (i : Nat) (h : (slotAt t d i).1 ≠ 0#w) :
    i < t.length ∧ slotAt t d i ∈ t := by
  unfold slotAt at *
  by_cases hi : i < t.length
  · rw [List.getD_eq_getElem _ _ hi]; exact ⟨hi, List.getElem_mem hi⟩
  · rw [List.getD_eq_default _ _ (by omega)] at h; simp at h

theorem mem_slotAt (t : List (BitVec w × V)) (d : V) (e : BitVec w × V) (h : e ∈ t) :
    ∃ i < t.length, slotAt t d i = e := by
  obtain ⟨i, hi, he⟩ := List.mem_iff_getElem.mp h
  exact ⟨i, hi, by unfold slotAt; rw [List.getD_eq_getElem _ _ hi, he]⟩

theorem used_set (t : List (BitVec w × V)) (d : V) (p : Nat) (e : BitVec w × V) (hp : p < t.length) (he : e.1 ≠ 0#w) :
    used (t.set p e) = if (slotAt t d p).1 = 0#w then used t + 1 else used t := by
  unfold used
  rw [List.countP_set hp]
  have hs : slotAt t d p = t[p] := by unfold slotAt; exact List.getD_eq_getElem _ _ hp
  rw [hs]
  by_cases h : t[p].1 = 0#w
  · simp [h, he]
  · have hpos : 0 < t.countP fun e => decide (e.1 ≠ 0#w) := by
      rw [List.countP_pos_iff]; exact ⟨t[p], List.getElem_mem hp, by simpa using h⟩
    simp only [h, he, if_false, ne_eq, not_false_eq_true, decide_true, if_true]
    simp only [ne_eq] at hpos
    omega

/-- Probing for a stored key finds it. -/
theorem probe_found {t : List (BitVec w × V)} {d : V} {n mask : Nat} (h : TInv t d n mask) (i : Nat)
    (hi : i < n) (hk : (slotAt t d i).1 ≠ 0#w) :
    probe t d mask (slotAt t d i).1 t.length (slotOf mask (slotAt t d i).1) = some i := by
  obtain ⟨J, hJ, hiJ, hbefore⟩ := h.reach i hi hk
  have hsl := slotOf_lt h.size (slotAt t d i).1
  have := probe_eq h.size t d (slotAt t d i).1 t.length (slotOf mask (slotAt t d i).1) J hsl
    (by rw [h.len]; exact hJ) (by rw [← hiJ]; exact Or.inr rfl) ?_
  · rw [this, ← hiJ]
  · intro j' hj' hor
    rcases hor with h0 | h0
    · exact hbefore j' hj' h0
    · have hp : (slotOf mask (slotAt t d i).1 + j') % n < n := Nat.mod_lt _ (by omega)
      have e := h.uniq i hi _ hp hk h0.symm
      have := steps_inj (by omega) hJ (e.symm.trans hiJ)
      omega

/-- The first empty position from a slot. -/
theorem first_empty {t : List (BitVec w × V)} {d : V} {n : Nat} (hl : t.length = n) (hu : used t < n)
    (s : Nat) (hs : s < n) :
    ∃ j < n, (slotAt t d ((s + j) % n)).1 = 0#w ∧ ∀ j' < j, (slotAt t d ((s + j') % n)).1 ≠ 0#w := by
  classical
  obtain ⟨i, hi, h0⟩ := exists_empty t d n hl hu
  obtain ⟨j, hj, he⟩ := exists_steps hi hs
  have hex : ∃ j, (slotAt t d ((s + j) % n)).1 = 0#w := ⟨j, by rw [he]; exact h0⟩
  refine ⟨Nat.find hex, ?_, Nat.find_spec hex, fun j' hj' => Nat.find_min hex hj'⟩
  have : Nat.find hex ≤ j := Nat.find_min' hex (by rw [he]; exact h0)
  omega

/-- Writing a new key at the first empty position from its slot. -/
theorem put_new {t : List (BitVec w × V)} {d : V} {n mask : Nat} (h : TInv t d n mask) (k : BitVec w) (v : V)
    (hk : k ≠ 0#w) (hnot : ∀ i < n, (slotAt t d i).1 ≠ k) (j : Nat) (hj : j < n)
    (h0 : (slotAt t d ((slotOf mask k + j) % n)).1 = 0#w)
    (hb : ∀ j' < j, (slotAt t d ((slotOf mask k + j') % n)).1 ≠ 0#w) :
    TInv (t.set ((slotOf mask k + j) % n) (k, v)) d n mask := by
  have hn : 0 < n := by have := h.size.2.1; omega
  have hp : (slotOf mask k + j) % n < t.length := by rw [h.len]; exact Nat.mod_lt _ hn
  generalize hpe : (slotOf mask k + j) % n = p at *
  have hset := fun i => slotAt_set t d p i (k, v) hp
  refine ⟨h.size, by simp [h.len], ?_, ?_⟩
  · intro i hi hne
    rw [hset i] at hne ⊢
    by_cases e : p = i
    · rw [if_pos e]
      refine ⟨j, hj, by rw [← e, ← hpe], ?_⟩
      intro j' hj'
      rw [hset]
      split
      · exact hk
      · exact hb j' hj'
    · rw [if_neg e] at hne ⊢
      obtain ⟨J, hJ, hiJ, hbefore⟩ := h.reach i hi hne
      refine ⟨J, hJ, hiJ, ?_⟩
      intro j' hj'
      rw [hset]
      split
      · exact hk
      · exact hbefore j' hj'
  · intro i hi i' hi' hne heq
    rw [hset i] at hne heq
    rw [hset i'] at heq
    by_cases e : p = i
    · rw [if_pos e] at heq
      by_cases e' : p = i'
      · omega
      · rw [if_neg e'] at heq; exact absurd heq.symm (hnot i' hi')
    · rw [if_neg e] at hne heq
      by_cases e' : p = i'
      · rw [if_pos e'] at heq; exact absurd heq (hnot i hi)
      · rw [if_neg e'] at heq; exact h.uniq i hi i' hi' hne heq

/-- Overwriting the value of a stored key. -/
theorem put_old {t : List (BitVec w × V)} {d : V} {n mask : Nat} (h : TInv t d n mask) (p : Nat) (v : V)
    (hp : p < n) : TInv (t.set p ((slotAt t d p).1, v)) d n mask := by
  have hset := fun i => slotAt_set t d p i ((slotAt t d p).1, v) (by rw [h.len]; exact hp)
  have hkey : ∀ i, (slotAt (t.set p ((slotAt t d p).1, v)) d i).1 = (slotAt t d i).1 := by
    intro i; rw [hset]; split
    · rename_i e; rw [e]
    · rfl
  refine ⟨h.size, by simp [h.len], ?_, ?_⟩
  · intro i hi hne
    rw [hkey] at hne ⊢
    obtain ⟨J, hJ, h1, h2⟩ := h.reach i hi hne
    exact ⟨J, hJ, h1, fun j hj => by rw [hkey]; exact h2 j hj⟩
  · intro i hi i' hi' hne heq
    rw [hkey] at hne heq; rw [hkey] at heq
    exact h.uniq i hi i' hi' hne heq

/-- The table holds the pair. -/
def Has (t : List (BitVec w × V)) (k : BitVec w) (v : V) : Prop := (k, v) ∈ t

theorem has_iff (t : List (BitVec w × V)) (d : V) (k : BitVec w) (v : V) (hk : k ≠ 0#w) :
    Has t k v ↔ ∃ i < t.length, slotAt t d i = (k, v) := by
  constructor
  · exact mem_slotAt t d (k, v)
  · rintro ⟨i, hi, he⟩
    have := slotAt_mem t d i (by rw [he]; exact hk)
    rw [he] at this; exact this.2

/-- `rehash` moves every entry over. -/
theorem rehash_spec (d : V) (mask n : Nat) : ∀ (es t : List (BitVec w × V)), TInv t d n mask →
    ((es.filter fun e => decide (e.1 ≠ 0#w)).map Prod.fst).Nodup →
    (∀ e ∈ es, e.1 ≠ 0#w → ∀ i < n, (slotAt t d i).1 ≠ e.1) → used t + used es < n →
    ∃ t', rehash d mask es t = some t' ∧ TInv t' d n mask ∧ used t' = used t + used es ∧
      ∀ k v, k ≠ 0#w → (Has t' k v ↔ Has t k v ∨ Has es k v) := by
  intro es
  induction es with
  | nil => intro t h _ _ _; exact ⟨t, rfl, h, by simp [used], by simp [Has]⟩
  | cons e rest ih =>
    intro t h hnd hdis hu
    obtain ⟨k, v⟩ := e
    have hn : 0 < n := by have := h.size.2.1; omega
    simp only [rehash]
    by_cases hk : k ≠ 0#w
    · rw [if_pos hk]
      have hused : used ((k, v) :: rest) = used rest + 1 := by simp [used, hk]
      obtain ⟨j, hj, h0, hb⟩ := first_empty (d := d) h.len (by omega) (slotOf mask k) (slotOf_lt h.size k)
      rw [probeEmpty_eq h.size t d t.length (slotOf mask k) j (slotOf_lt h.size k) (by rw [h.len]; exact hj) h0 hb]
      have hnot := hdis (k, v) (by simp) hk
      have hT := put_new h k v hk hnot j hj h0 hb
      have hp : (slotOf mask k + j) % n < t.length := by rw [h.len]; exact Nat.mod_lt _ hn
      have hus : used (t.set ((slotOf mask k + j) % n) (k, v)) = used t + 1 := by
        rw [used_set t d _ _ hp hk, if_pos h0]
      have hset := fun i => slotAt_set t d _ i (k, v) hp
      simp only [ne_eq, hk, not_false_eq_true, decide_true, List.filter_cons_of_pos, List.map_cons,
        List.nodup_cons] at hnd
      obtain ⟨t', r1, r2, r3, r4⟩ := ih _ hT (by simpa using hnd.2) (by
        intro e he hne i hi
        rw [hset]
        split
        · intro hke
          simp only at hke
          apply hnd.1
          rw [List.mem_map]
          exact ⟨e, by simp [he, hne], hke.symm⟩
        · exact hdis e (by simp [he]) hne i hi) (by rw [hus]; omega)
      refine ⟨t', r1, r2, by rw [r3, hus, hused]; omega, ?_⟩
      intro a x ha
      rw [r4 a x ha, has_iff _ d _ _ ha, has_iff t d _ _ ha]
      simp only [List.length_set]
      have hcons : Has ((k, v) :: rest) a x ↔ (a = k ∧ x = v) ∨ Has rest a x := by
        simp [Has]
      rw [hcons]
      constructor
      · rintro (⟨i, hi, he⟩ | hr)
        · rw [hset] at he
          split at he
          · simp only [Prod.mk.injEq] at he; exact Or.inr (Or.inl ⟨he.1.symm, he.2.symm⟩)
          · exact Or.inl ⟨i, hi, he⟩
        · exact Or.inr (Or.inr hr)
      · rintro (⟨i, hi, he⟩ | ⟨rfl, rfl⟩ | hr)
        · refine Or.inl ⟨i, hi, ?_⟩
          rw [hset, if_neg]
          · exact he
          · rintro rfl; rw [he] at h0; exact ha h0
        · exact Or.inl ⟨_, hp, by rw [hset, if_pos rfl]⟩
        · exact Or.inr hr
    · rw [if_neg hk]
      push Not at hk
      have hused : used ((k, v) :: rest) = used rest := by simp [used, hk]
      obtain ⟨t', r1, r2, r3, r4⟩ := ih t h (by simpa [hk] using hnd)
        (fun e he => hdis e (by simp [he])) (by omega)
      refine ⟨t', r1, r2, by rw [r3, hused], ?_⟩
      intro a x ha
      rw [r4 a x ha]
      have : Has ((k, v) :: rest) a x ↔ Has rest a x := by
        simp only [Has, List.mem_cons, Prod.mk.injEq, hk]
        constructor
        · rintro (⟨h, _⟩ | h)
          · exact absurd h ha
          · exact h
        · exact Or.inr
      rw [this]

theorem emptyTable_slot (d : V) (n i : Nat) : slotAt (emptyTable w d n) d i = (0#w, d) := by
  unfold slotAt emptyTable
  rw [List.getD_eq_getElem?_getD, List.getElem?_replicate]
  split <;> rfl

theorem emptyTable_inv (d : V) (n mask : Nat) (hs : IsSize n mask) :
    TInv (emptyTable w d n) d n mask ∧ used (emptyTable w d n) = 0 := by
  refine ⟨⟨hs, by simp [emptyTable], ?_, ?_⟩, ?_⟩
  · intro i _ h; rw [emptyTable_slot] at h; simp at h
  · intro i _ i' _ h; rw [emptyTable_slot] at h; simp at h
  · unfold used emptyTable; rw [List.countP_replicate]; simp

theorem nodup_of_inv {t : List (BitVec w × V)} {d : V} {n mask : Nat} (h : TInv t d n mask) :
    ((t.filter fun e => decide (e.1 ≠ 0#w)).map Prod.fst).Nodup := by
  rw [List.Nodup, List.pairwise_map, List.pairwise_filter, List.pairwise_iff_getElem]
  intro i j hi hj hij h1 h2 heq
  have e1 : slotAt t d i = t[i] := by unfold slotAt; exact List.getD_eq_getElem _ _ hi
  have e2 : slotAt t d j = t[j] := by unfold slotAt; exact List.getD_eq_getElem _ _ hj
  have := h.uniq i (by rw [← h.len]; exact hi) j (by rw [← h.len]; exact hj)
    (by rw [e1]; simpa using h1) (by rw [e1, e2]; exact heq)
  omega

/-- What a map represents: the finite map `f` with `c` keys. -/
structure MInv (d : V) (m : OMap w V) (f : BitVec w → Option V) : Prop where
  zero : f 0#w = if m.hasZero then some m.zeroVal else none
  keys : ∀ k v, k ≠ 0#w → (f k = some v ↔ Has m.entries k v)
  none' : m.mask = 0 → m.entries = []
  table : m.mask ≠ 0 → TInv m.entries d (m.mask + 1) m.mask
  load : used m.entries * 4 ≤ (m.mask + 1) * 3
  len : m.len = used m.entries + (if m.hasZero then 1 else 0)

theorem MInv.tableLen {d : V} {m : OMap w V} {f : BitVec w → Option V} (h : MInv d m f) :
    m.tableLen = used m.entries := by
  unfold OMap.tableLen; rw [h.len]; omega

theorem minv_new (d : V) : MInv d (OMap.new d : OMap w V) (fun _ => none) := by
  refine ⟨rfl, ?_, fun _ => rfl, fun h => absurd rfl h, by simp [OMap.new, used], by simp [OMap.new, used]⟩
  intro k v _; simp [OMap.new, Has]

theorem nextPow2_pow (n : Nat) : ∃ b, nextPow2 n = 2 ^ b := by
  unfold nextPow2
  split
  · exact ⟨0, rfl⟩
  · exact ⟨_, rfl⟩

theorem minv_withCapacity (d : V) (cap : Nat) : MInv d (OMap.withCapacity d cap : OMap w V) (fun _ => none) := by
  unfold OMap.withCapacity
  split
  · obtain ⟨b, hb⟩ := nextPow2_pow (cap * 4 / 3 + 1)
    have hsz : ∃ b, max (nextPow2 (cap * 4 / 3 + 1)) 8 = 2 ^ b := by
      rcases Nat.le_total (nextPow2 (cap * 4 / 3 + 1)) 8 with h | h
      · exact ⟨3, by rw [Nat.max_eq_right h]; rfl⟩
      · exact ⟨b, by rw [Nat.max_eq_left h, hb]⟩
    have h8 : 8 ≤ max (nextPow2 (cap * 4 / 3 + 1)) 8 := Nat.le_max_right _ _
    generalize max (nextPow2 (cap * 4 / 3 + 1)) 8 = n at *
    have hs : IsSize n (n - 1) := ⟨by omega, by omega, hsz⟩
    obtain ⟨i1, i2⟩ := emptyTable_inv (w := w) d n (n - 1) hs
    refine ⟨rfl, ?_, ?_, ?_, ?_, ?_⟩
    · intro k v hk
      simp only [Has, emptyTable, List.mem_replicate, Prod.mk.injEq]
      simp [hk]
    · intro h; simp only at h; omega
    · intro _; simp only; rw [show n - 1 + 1 = n by omega]; exact i1
    · simp only [i2]; omega
    · simp [i2]
  · exact minv_new d

theorem put_spec (d : V) (m : OMap w V) (f : BitVec w → Option V) (h : MInv d m f) (hm : m.mask ≠ 0)
    (hroom : (used m.entries + 1) * 4 ≤ (m.mask + 1) * 3) (k : BitVec w) (v : V) (hk : k ≠ 0#w) :
    ∃ m', m.put d k v = some m' ∧ MInv d m' (fun a => if a = k then some v else f a) ∧
      m'.len = if f k = none then m.len + 1 else m.len := by
  have hT := h.table hm
  have hn : 0 < m.mask + 1 := by omega
  unfold OMap.put
  by_cases hin : ∃ i < m.mask + 1, (slotAt m.entries d i).1 = k
  · obtain ⟨i, hi, hik⟩ := hin
    have hp := probe_found hT i hi (by rw [hik]; exact hk)
    rw [hik] at hp
    have hil : i < m.entries.length := by rw [hT.len]; exact hi
    rw [hp]
    simp only [hik, hk, if_false]
    have hset := fun a => slotAt_set m.entries d i a (k, v) hil
    have hfk : f k = some (slotAt m.entries d i).2 := by
      rw [h.keys k _ hk, has_iff _ d _ _ hk]
      exact ⟨i, hil, by rw [← hik]⟩
    have hus : used (m.entries.set i (k, v)) = used m.entries := by
      rw [used_set _ d _ _ hil hk, if_neg (by rw [hik]; exact hk)]
    refine ⟨_, rfl, ⟨?_, ?_, ?_, ?_, ?_, ?_⟩, by simp [hfk]⟩
    · simp only [if_neg (Ne.symm hk)]; exact h.zero
    · intro a x ha
      simp only
      rw [has_iff _ d _ _ ha, List.length_set]
      by_cases e : a = k
      · subst e
        rw [if_pos rfl]
        constructor
        · intro hx; simp only [Option.some.injEq] at hx; subst hx
          exact ⟨i, hil, by rw [hset, if_pos rfl]⟩
        · rintro ⟨b, hb, hbe⟩
          rw [hset] at hbe
          split at hbe
          · simp only [Prod.mk.injEq, true_and] at hbe; rw [hbe]
          · rename_i hne
            exact absurd (hT.uniq i hi b (by rw [← hT.len]; exact hb) (by rw [hik]; exact hk)
              (by rw [hik, hbe])) hne
      · rw [if_neg e, h.keys a x ha, has_iff _ d _ _ ha]
        constructor
        · rintro ⟨b, hb, hbe⟩
          refine ⟨b, hb, ?_⟩
          rw [hset, if_neg]
          · exact hbe
          · rintro rfl; rw [hbe] at hik; exact e hik
        · rintro ⟨b, hb, hbe⟩
          rw [hset] at hbe
          split at hbe
          · simp only [Prod.mk.injEq] at hbe; exact absurd hbe.1.symm e
          · exact ⟨b, hb, hbe⟩
    · intro hc; exact absurd hc hm
    · intro _
      have := put_old hT i v hi
      rw [hik] at this; exact this
    · rw [hus]; exact h.load
    · simp only [hus]; exact h.len
  · push Not at hin
    have hu : used m.entries < m.mask + 1 := by omega
    obtain ⟨j, hj, h0, hb⟩ := first_empty (d := d) hT.len hu (slotOf m.mask k) (slotOf_lt hT.size k)
    have hp : (slotOf m.mask k + j) % (m.mask + 1) < m.entries.length := by
      rw [hT.len]; exact Nat.mod_lt _ hn
    rw [probe_eq hT.size m.entries d k m.entries.length (slotOf m.mask k) j (slotOf_lt hT.size k)
      (by rw [hT.len]; exact hj) (Or.inl h0) (by
        intro j' hj' hor
        rcases hor with h1 | h1
        · exact hb j' hj' h1
        · exact hin _ (Nat.mod_lt _ hn) h1)]
    simp only [h0, if_true]
    have hset := fun a => slotAt_set m.entries d _ a (k, v) hp
    have hus : used (m.entries.set ((slotOf m.mask k + j) % (m.mask + 1)) (k, v)) = used m.entries + 1 := by
      rw [used_set _ d _ _ hp hk, if_pos h0]
    have hfk : f k = none := by
      cases hf : f k with
      | none => rfl
      | some x =>
        rw [h.keys k x hk, has_iff _ d _ _ hk] at hf
        obtain ⟨i, hi, he⟩ := hf
        exact absurd (by rw [he]) (hin i (by rw [← hT.len]; exact hi))
    refine ⟨_, rfl, ⟨?_, ?_, ?_, ?_, ?_, ?_⟩, by simp [hfk]⟩
    · simp only [if_neg (Ne.symm hk)]; exact h.zero
    · intro a x ha
      simp only
      rw [has_iff _ d _ _ ha, List.length_set]
      by_cases e : a = k
      · subst e
        rw [if_pos rfl]
        constructor
        · intro hx; simp only [Option.some.injEq] at hx; subst hx
          exact ⟨_, hp, by rw [hset, if_pos rfl]⟩
        · rintro ⟨b, hb, hbe⟩
          rw [hset] at hbe
          split at hbe
          · simp only [Prod.mk.injEq, true_and] at hbe; rw [hbe]
          · exact absurd (by rw [hbe]) (hin b (by rw [← hT.len]; exact hb))
      · rw [if_neg e, h.keys a x ha, has_iff _ d _ _ ha]
        constructor
        · rintro ⟨b, hb', hbe⟩
          refine ⟨b, hb', ?_⟩
          rw [hset, if_neg]
          · exact hbe
          · rintro rfl; rw [hbe] at h0; exact ha h0
        · rintro ⟨b, hb', hbe⟩
          rw [hset] at hbe
          split at hbe
          · simp only [Prod.mk.injEq] at hbe; exact absurd hbe.1.symm e
          · exact ⟨b, hb', hbe⟩
    · intro hc; exact absurd hc hm
    · intro _; exact put_new hT k v hk hin j hj h0 hb
    · rw [hus]; exact hroom
    · simp only [hus, h.len]; omega

theorem grow_spec (d : V) (m : OMap w V) (f : BitVec w → Option V) (h : MInv d m f) :
    ∃ m', m.grow d = some m' ∧ MInv d m' f ∧ m'.mask ≠ 0 ∧
      (used m'.entries + 1) * 4 ≤ (m'.mask + 1) * 3 ∧ m'.len = m.len := by
  unfold OMap.grow
  by_cases hm : m.mask = 0
  · have he := h.none' hm
    have hu : used m.entries = 0 := by rw [he]; simp [used]
    have hs : IsSize 8 7 := ⟨rfl, by omega, 3, rfl⟩
    obtain ⟨i1, i2⟩ := emptyTable_inv (w := w) d 8 7 hs
    simp only [hm, if_true, he, rehash]
    refine ⟨_, rfl, ⟨h.zero, ?_, ?_, fun _ => i1, ?_, ?_⟩, by simp, by simp [i2], rfl⟩
    · intro k v hk
      rw [h.keys k v hk, he]
      simp [Has, emptyTable, hk]
    · intro hc; simp at hc
    · simp [i2]
    · have := h.len; rw [hu] at this; simp only [i2]; exact this
  · simp only [if_neg hm]
    have hT := h.table hm
    have hs : IsSize ((m.mask + 1) * 2) ((m.mask + 1) * 2 - 1) := by
      obtain ⟨h1, h2, b, h3⟩ := hT.size
      exact ⟨by omega, by omega, b + 1, by rw [h3]; rfl⟩
    obtain ⟨i1, i2⟩ := emptyTable_inv (w := w) d _ _ hs
    have hload := h.load
    obtain ⟨t', r1, r2, r3, r4⟩ := rehash_spec d _ _ m.entries _ i1 (nodup_of_inv hT)
      (by intro e _ hne i _; rw [emptyTable_slot]; exact Ne.symm hne) (by rw [i2]; omega)
    rw [r1]
    have hmask : (m.mask + 1) * 2 - 1 + 1 = (m.mask + 1) * 2 := by omega
    rw [i2, Nat.zero_add] at r3
    refine ⟨_, rfl, ⟨h.zero, ?_, ?_, ?_, ?_, ?_⟩, ?_, ?_, rfl⟩
    · intro k v hk
      rw [h.keys k v hk]
      simp only
      rw [r4 k v hk]
      simp [Has, emptyTable, hk]
    · intro hc; simp only at hc; omega
    · intro _; simp only [hmask]; exact r2
    · simp only [hmask, r3]; omega
    · simp only [r3]; exact h.len
    · simp only; omega
    · simp only [hmask, r3]; have := hT.size.2.1; omega

theorem insert_spec (d : V) (m : OMap w V) (f : BitVec w → Option V) (h : MInv d m f) (k : BitVec w) (v : V) :
    ∃ m', m.insert d k v = some m' ∧ MInv d m' (fun a => if a = k then some v else f a) ∧
      m'.len = if f k = none then m.len + 1 else m.len := by
  unfold OMap.insert
  by_cases hk : k = 0#w
  · rw [if_pos hk]
    subst hk
    refine ⟨_, rfl, ⟨by simp, ?_, h.none', h.table, h.load, ?_⟩, ?_⟩
    · intro a x ha; simp only [if_neg ha]; exact h.keys a x ha
    · simp only [if_true]; have := h.len
      cases hz : m.hasZero <;> simp [hz] at this ⊢ <;> omega
    · simp only [h.zero]; cases m.hasZero <;> simp
  · rw [if_neg hk]
    by_cases hg : m.needsGrow = true
    · rw [if_pos hg]
      obtain ⟨m1, g1, g2, g3, g4, g5⟩ := grow_spec d m f h
      rw [g1]
      obtain ⟨m2, p1, p2, p3⟩ := put_spec d m1 f g2 g3 g4 k v hk
      exact ⟨m2, p1, p2, by rw [p3, g5]⟩
    · rw [if_neg hg]
      simp only [OMap.needsGrow, decide_eq_true_eq, not_or] at hg
      rw [h.tableLen] at hg
      exact put_spec d m f h hg.1 (by omega) k v hk

theorem get_spec (d : V) (m : OMap w V) (f : BitVec w → Option V) (h : MInv d m f) (k : BitVec w) :
    m.get d k = some (f k) := by
  unfold OMap.get
  by_cases hk : k = 0#w
  · rw [if_pos hk, hk, h.zero]
  · rw [if_neg hk]
    by_cases hm : m.mask = 0
    · rw [if_pos hm]
      cases hf : f k with
      | none => rfl
      | some x => rw [h.keys k x hk, h.none' hm] at hf; simp [Has] at hf
    · rw [if_neg hm]
      have hT := h.table hm
      have hn : 0 < m.mask + 1 := by omega
      by_cases hin : ∃ i < m.mask + 1, (slotAt m.entries d i).1 = k
      · obtain ⟨i, hi, hik⟩ := hin
        have hp := probe_found hT i hi (by rw [hik]; exact hk)
        rw [hik] at hp
        rw [hp]
        simp only [hik, if_true]
        congr 1
        symm
        rw [h.keys k _ hk, has_iff _ d _ _ hk]
        exact ⟨i, by rw [hT.len]; exact hi, by rw [← hik]⟩
      · push Not at hin
        have hload := h.load
        obtain ⟨j, hj, h0, hb⟩ := first_empty (d := d) hT.len (by have := hT.size.2.1; omega)
          (slotOf m.mask k) (slotOf_lt hT.size k)
        rw [probe_eq hT.size m.entries d k m.entries.length (slotOf m.mask k) j (slotOf_lt hT.size k)
          (by rw [hT.len]; exact hj) (Or.inl h0) (by
            intro j' hj' hor
            rcases hor with h1 | h1
            · exact hb j' hj' h1
            · exact hin _ (Nat.mod_lt _ hn) h1)]
        simp only [h0, if_neg (Ne.symm hk)]
        congr 1
        symm
        cases hf : f k with
        | none => rfl
        | some x =>
          rw [h.keys k x hk, has_iff _ d _ _ hk] at hf
          obtain ⟨i, hi, he⟩ := hf
          exact absurd (by rw [he]) (hin i (by rw [← hT.len]; exact hi))

theorem lastFor_append {K A : Type} [DecidableEq K] (k : K) (l : List (K × A)) (a : K) (v : A) :
    lastFor k (l ++ [(a, v)]) = if k = a then some v else lastFor k l := by
  induction l with
  | nil => simp only [List.nil_append, lastFor]; by_cases h : a = k
           · simp [h]
           · simp [h, Ne.symm h]
  | cons e rest ih =>
    obtain ⟨b, x⟩ := e
    simp only [List.cons_append, lastFor, ih]
    by_cases h : k = a
    · simp [h]
    · simp [h]

theorem lastFor_none {K A : Type} [DecidableEq K] (k : K) (l : List (K × A)) :
    lastFor k l = none ↔ k ∉ l.map Prod.fst := by
  induction l with
  | nil => simp [lastFor]
  | cons e rest ih =>
    obtain ⟨b, x⟩ := e
    simp only [lastFor, List.map_cons, List.mem_cons, not_or]
    cases h : lastFor k rest with
    | none =>
      rw [h] at ih; simp only [true_iff] at ih
      by_cases e : b = k
      · simp [e]
      · simp [e, ih, Ne.symm e]
    | some y =>
      rw [h] at ih
      simp only [reduceCtorEq, false_iff, not_not] at ih
      simp [ih]

/-- A sequence of insertions. -/
def OMap.run (d : V) (m : OMap w V) : List (BitVec w × V) → Option (OMap w V)
  | [] => some m
  | (k, v) :: rest =>
    match m.insert d k v with
    | none => none
    | some m' => m'.run d rest

theorem run_spec (d : V) : ∀ (ops past : List (BitVec w × V)) (m : OMap w V),
    MInv d m (fun k => lastFor k past) → m.len = (past.map Prod.fst).dedup.length →
    ∃ m', m.run d ops = some m' ∧ MInv d m' (fun k => lastFor k (past ++ ops)) ∧
      m'.len = ((past ++ ops).map Prod.fst).dedup.length := by
  intro ops
  induction ops with
  | nil => intro past m h hl; exact ⟨m, rfl, by simpa using h, by simpa using hl⟩
  | cons e rest ih =>
    intro past m h hl
    obtain ⟨k, v⟩ := e
    obtain ⟨m1, s1, s2, s3⟩ := insert_spec d m _ h k v
    have hf : (fun a => if a = k then some v else lastFor a past) = fun a => lastFor a (past ++ [(k, v)]) := by
      funext a; rw [lastFor_append]
    rw [hf] at s2
    have hlen : m1.len = ((past ++ [(k, v)]).map Prod.fst).dedup.length := by
      rw [s3, hl]
      simp only [lastFor_none]
      rw [← List.card_toFinset, ← List.card_toFinset, List.map_append, List.toFinset_append]
      simp only [List.map_cons, List.map_nil, List.toFinset_cons, List.toFinset_nil, insert_empty_eq]
      rw [Finset.union_comm, ← Finset.insert_eq]
      by_cases hm : k ∈ past.map Prod.fst
      · rw [if_neg (by simpa using hm), Finset.insert_eq_of_mem (List.mem_toFinset.mpr hm)]
      · rw [if_pos hm, Finset.card_insert_of_notMem (by rw [List.mem_toFinset]; exact hm)]
    obtain ⟨m', r1, r2, r3⟩ := ih (past ++ [(k, v)]) m1 s2 hlen
    refine ⟨m', by simp only [OMap.run, s1]; exact r1, ?_, ?_⟩
    · simpa [List.append_assoc] using r2
    · simpa [List.append_assoc] using r3

end Verif.Data
