import Verif.Crdt.Registers
import Verif.Crdt.WorldInv
namespace Verif.Crdt

namespace VClock
/-- no explicit zero entries -/
def NoZero (c : VClock) : Prop := ∀ r, c.entries.get? r ≠ some 0

theorem noZero_new : NoZero new := by intro r; simp [new]

theorem NoZero.merge {a b : VClock} (ha : a.NoZero) (hb : b.NoZero) : (a.merge b).NoZero := by
  intro r
  simp only [VClock.merge]
  rw [HMap.fold_upsert_get? b.entries a.entries 0 (fun x y => max x y)]
  cases h : b.entries.get? r with
  | none => exact ha r
  | some v =>
    have := hb r
    rw [h] at this
    simp only [ne_eq, Option.some.injEq] at this ⊢
    omega

theorem NoZero.increment {a : VClock} (ha : a.NoZero) (r : Rid) : (a.increment r).NoZero := by
  intro x
  simp only [VClock.increment, HMap.get?_upsert]
  split
  · simp
  · exact ha x

theorem NoZero.beq {a b : VClock} (ha : a.NoZero) (hb : b.NoZero) :
    a.beq b = true ↔ ∀ r, a.get r = b.get r := by
  rw [beq_iff]
  constructor
  · intro h r; simp only [get, HMap.getD, h r]
  · intro h r
    have h1 := ha r
    have h2 := hb r
    have h3 := h r
    simp only [get, HMap.getD] at h3
    cases e1 : a.entries.get? r <;> cases e2 : b.entries.get? r <;> simp_all
end VClock

section MV
variable {T : Type} [DecidableEq T]
open MVReg

theorem joinClocks_get (vs : List (T × VClock)) (r j : Nat) :
    j < (joinClocks vs).get r ↔ ∃ p ∈ vs, j < p.2.get r := by
  have : ∀ acc : VClock, j < (vs.foldl (fun acc p => acc.merge p.2) acc).get r ↔
      j < acc.get r ∨ ∃ p ∈ vs, j < p.2.get r := by
    induction vs with
    | nil => simp
    | cons h t ih =>
      intro acc
      rw [List.foldl_cons, ih, VClock.get_merge]
      simp only [List.mem_cons, exists_eq_or_imp, ← or_assoc]
      have : j < max (acc.get r) (h.2.get r) ↔ j < acc.get r ∨ j < h.2.get r := by omega
      rw [this]
  rw [joinClocks, this]
  simp

theorem joinClocks_noZero (vs : List (T × VClock)) (h : ∀ p ∈ vs, p.2.NoZero) : (joinClocks vs).NoZero := by
  rw [joinClocks]
  have : ∀ acc : VClock, acc.NoZero → (vs.foldl (fun acc p => acc.merge p.2) acc).NoZero := by
    induction vs with
    | nil => intro acc ha; exact ha
    | cons hd t ih =>
      intro acc ha
      rw [List.foldl_cons]
      exact ih (fun p hp => h p (List.mem_cons_of_mem _ hp)) _ (ha.merge (h hd List.mem_cons_self))
  exact this _ VClock.noZero_new

abbrev Tagged (T : Type) := Ev × (T × VClock)

structure Tag (iss : Iss (MVReg T) T) (t : Tagged T) : Prop where
  ex : ∃ i, iss t.1 = some i ∧ i.op = t.2.1 ∧
    ∀ r j, j < t.2.2.get r ↔ (⟨r, j⟩ : Ev) ∈ i.past ∨ (⟨r, j⟩ : Ev) = t.1
  nz : t.2.2.NoZero

structure mvTL (iss : Iss (MVReg T) T) (seen : Set Ev) (values : List (T × VClock))
    (TL : List (Tagged T)) : Prop where
  vals : values = TL.map Prod.snd
  nodup : (TL.map Prod.fst).Nodup
  tag : ∀ t ∈ TL, Tag iss t ∧ t.1 ∈ seen
  maxl : ∀ t ∈ TL, ∀ f ∈ seen, ∀ i, iss f = some i → t.1 ∉ i.past
  cover : ∀ e ∈ seen, ∃ t ∈ TL, e = t.1 ∨ ∃ i, iss t.1 = some i ∧ e ∈ i.past

def mvInv (iss : Iss (MVReg T) T) (c : Copy (MVReg T)) : Prop :=
  ∃ TL, mvTL iss c.seen c.state.values TL

theorem Tag.mono {iss : Iss (MVReg T) T} {t : Tagged T} {e i} (h : Tag iss t) (he : iss e = none) :
    Tag (iss.add e i) t := by
  obtain ⟨⟨k, hk, h2⟩, nz⟩ := h
  refine ⟨⟨k, ?_, h2⟩, nz⟩
  rw [Iss.add_ne]; exact hk
  intro h3; rw [h3, he] at hk; cases hk

theorem keepMaximal_tagged (iss : Iss (MVReg T) T) (all : List (Tagged T))
    (bef : Ev → Ev → Prop)
    (hdom : ∀ t ∈ all, dominated (all.map Prod.snd) t.2 = true ↔ ∃ u ∈ all, bef t.1 u.1)
    (heq : ∀ t ∈ all, ∀ u ∈ all,
      ((decide (u.2.1 = t.2.1) && u.2.2.beq t.2.2) = true) ↔ u.1 = t.1) :
    ∃ TL : List (Tagged T), keepMaximal (all.map Prod.snd) = TL.map Prod.snd ∧
      (TL.map Prod.fst).Nodup ∧ (∀ t ∈ TL, t ∈ all ∧ ¬ ∃ u ∈ all, bef t.1 u.1) ∧
      (∀ t ∈ all, (¬ ∃ u ∈ all, bef t.1 u.1) → ∃ u ∈ TL, u.1 = t.1) := by
  have main : ∀ (suf : List (Tagged T)) (res : List (Tagged T)), (∀ t ∈ suf, t ∈ all) →
      (res.map Prod.fst).Nodup → (∀ t ∈ res, t ∈ all ∧ ¬ ∃ u ∈ all, bef t.1 u.1) →
      ∃ TL : List (Tagged T),
        (suf.map Prod.snd).foldl (fun res p =>
          if dominated (all.map Prod.snd) p then res
          else if res.any (fun q => decide (q.1 = p.1) && q.2.beq p.2) then res
          else res ++ [p]) (res.map Prod.snd) = TL.map Prod.snd ∧
        (TL.map Prod.fst).Nodup ∧ (∀ t ∈ TL, t ∈ all ∧ ¬ ∃ u ∈ all, bef t.1 u.1) ∧
        (∀ t ∈ res, t ∈ TL) ∧
        (∀ t ∈ suf, (¬ ∃ u ∈ all, bef t.1 u.1) → ∃ u ∈ TL, u.1 = t.1) := by
    intro suf
    induction suf with
    | nil =>
      intro res _ hn hr
      exact ⟨res, rfl, hn, hr, fun t ht => ht, by simp⟩
    | cons t suf ih =>
      intro res hs hn hr
      have ht := hs t List.mem_cons_self
      have hs' : ∀ t ∈ suf, t ∈ all := fun x hx => hs x (List.mem_cons_of_mem _ hx)
      simp only [List.map_cons, List.foldl_cons]
      by_cases hd : dominated (all.map Prod.snd) t.2 = true
      · rw [if_pos hd]
        obtain ⟨TL, h1, h2, h3, h4, h5⟩ := ih res hs' hn hr
        refine ⟨TL, h1, h2, h3, h4, ?_⟩
        intro u hu hnb
        rcases List.mem_cons.1 hu with rfl | hu
        · exact absurd ((hdom _ ht).1 hd) hnb
        · exact h5 u hu hnb
      · rw [if_neg hd]
        have hnb : ¬ ∃ u ∈ all, bef t.1 u.1 := fun h => hd ((hdom _ ht).2 h)
        by_cases ha : ((res.map Prod.snd).any (fun q => decide (q.1 = t.2.1) && q.2.beq t.2.2)) = true
        · rw [if_pos ha]
          obtain ⟨TL, h1, h2, h3, h4, h5⟩ := ih res hs' hn hr
          refine ⟨TL, h1, h2, h3, h4, ?_⟩
          intro u hu hnb
          rcases List.mem_cons.1 hu with rfl | hu
          · obtain ⟨q, hq, hq2⟩ := List.any_eq_true.1 ha
            obtain ⟨x, hx, rfl⟩ := List.mem_map.1 hq
            exact ⟨x, h4 x hx, (heq _ ht x (hr x hx).1).1 hq2⟩
          · exact h5 u hu hnb
        · rw [if_neg ha]
          have hnew : t.1 ∉ res.map Prod.fst := by
            intro hm
            obtain ⟨x, hx, hx2⟩ := List.mem_map.1 hm
            apply ha
            refine List.any_eq_true.2 ⟨x.2, List.mem_map.2 ⟨x, hx, rfl⟩, ?_⟩
            exact (heq _ ht x (hr x hx).1).2 hx2
          have e1 : res.map Prod.snd ++ [t.2] = (res ++ [t]).map Prod.snd := by simp
          rw [e1]
          obtain ⟨TL, h1, h2, h3, h4, h5⟩ := ih (res ++ [t]) hs'
            (by
              rw [List.map_append, List.nodup_append]
              refine ⟨hn, by simp, ?_⟩
              intro a ha b hb hab
              simp only [List.map_cons, List.map_nil, List.mem_singleton] at hb
              rw [hab, hb] at ha
              exact hnew ha)
            (by
              intro x hx
              rcases List.mem_append.1 hx with hx | hx
              · exact hr x hx
              · rw [List.mem_singleton.1 hx]; exact ⟨ht, hnb⟩)
          refine ⟨TL, h1, h2, h3, fun x hx => h4 x (List.mem_append_left _ hx), ?_⟩
          intro u hu hnb'
          rcases List.mem_cons.1 hu with rfl | hu
          · exact ⟨u, h4 u (by simp), rfl⟩
          · exact h5 u hu hnb'
  obtain ⟨TL, h1, h2, h3, _, h5⟩ := main all [] (fun t h => h) (by simp) (by simp)
  exact ⟨TL, h1, h2, h3, h5⟩

/-- causal order read off the issue table -/
def bef (iss : Iss (MVReg T) T) (e f : Ev) : Prop := ∃ i, iss f = some i ∧ e ∈ i.past

section
variable {I : Iss (MVReg T) T → Copy (MVReg T) → Prop} {J : Rid → MVReg T → Prop}
  {iss : Iss (MVReg T) T}

theorem bef_irrefl (hist : ∀ e i, iss e = some i → Hist I J iss e i) (e : Ev) : ¬ bef iss e e := by
  rintro ⟨i, hi, hm⟩
  have := ((hist e i hi).own e.idx).1 hm
  omega

theorem bef_trans (hist : ∀ e i, iss e = some i → Hist I J iss e i) {e f g : Ev}
    (h1 : bef iss e f) (h2 : bef iss f g) : bef iss e g := by
  obtain ⟨i, hi, hm⟩ := h1
  obtain ⟨k, hk, hm2⟩ := h2
  obtain ⟨i', hi', hsub⟩ := (hist g k hk).good.issued f hm2
  rw [hi] at hi'; injection hi' with hi'; subst hi'
  exact ⟨k, hk, hsub hm⟩

theorem tag_dominates (hist : ∀ e i, iss e = some i → Hist I J iss e i) {t u : Tagged T}
    (ht : Tag iss t) (hu : Tag iss u) :
    u.2.2.dominates t.2.2 = true ↔ t.1 = u.1 ∨ bef iss t.1 u.1 := by
  obtain ⟨⟨i, hi, _, h2⟩, _⟩ := ht
  obtain ⟨⟨k, hk, _, k2⟩, _⟩ := hu
  rw [VClock.dominates_iff]
  constructor
  · intro h
    have h3 : t.1.idx < t.2.2.get t.1.rid := (h2 _ _).2 (Or.inr rfl)
    have h4 := (k2 _ _).1 (Nat.lt_of_lt_of_le h3 (h t.1.rid))
    rcases h4 with h4 | h4
    · exact Or.inr ⟨k, hk, h4⟩
    · exact Or.inl h4
  · intro h r
    by_contra hc
    have hc' : u.2.2.get r < t.2.2.get r := by omega
    have h3 := (h2 r _).1 hc'
    have h5 : u.2.2.get r < u.2.2.get r := by
      rw [k2]
      rcases h with h | h
      · rw [h] at hi
        rw [hi] at hk; injection hk with hk; subst hk
        rw [← h]; exact h3
      · left
        obtain ⟨k', hk', hm⟩ := h
        rw [hk] at hk'; injection hk' with hk'; subst hk'
        rcases h3 with h3 | h3
        · obtain ⟨i', hi', hsub⟩ := (hist _ _ hk).good.issued _ hm
          rw [hi] at hi'; injection hi' with hi'; subst hi'
          exact hsub h3
        · rw [h3]; exact hm
    omega

theorem tag_beq (hist : ∀ e i, iss e = some i → Hist I J iss e i) {t u : Tagged T}
    (ht : Tag iss t) (hu : Tag iss u) : u.2.2.beq t.2.2 = true ↔ u.1 = t.1 := by
  rw [hu.nz.beq ht.nz]
  constructor
  · intro h
    have h1 := (tag_dominates hist ht hu).1 (VClock.dominates_iff.2 (fun r => by rw [h r]))
    have h2 := (tag_dominates hist hu ht).1 (VClock.dominates_iff.2 (fun r => by rw [h r]))
    rcases h1 with h1 | h1
    · exact h1.symm
    · rcases h2 with h2 | h2
      · exact h2
      · exact absurd (bef_trans hist h1 h2) (bef_irrefl hist _)
  · intro h r
    have h1 := (tag_dominates hist ht hu).2 (Or.inl h.symm)
    have h2 := (tag_dominates hist hu ht).2 (Or.inl h)
    rw [VClock.dominates_iff] at h1 h2
    exact Nat.le_antisymm (h2 r) (h1 r)

theorem tag_val {t u : Tagged T} (ht : Tag iss t) (hu : Tag iss u) (h : u.1 = t.1) : u.2.1 = t.2.1 := by
  obtain ⟨⟨i, hi, h1, _⟩, _⟩ := ht
  obtain ⟨⟨k, hk, h2, _⟩, _⟩ := hu
  rw [h, hi] at hk; injection hk with hk; subst hk
  rw [← h1, ← h2]

theorem mvTL_merge (hist : ∀ e i, iss e = some i → Hist I J iss e i) {s1 s2 : Set Ev}
    {v1 v2 : List (T × VClock)} {L1 L2 : List (Tagged T)}
    (h1 : mvTL iss s1 v1 L1) (h2 : mvTL iss s2 v2 L2) :
    ∃ TL, mvTL iss (s1 ∪ s2) (keepMaximal (v1 ++ v2)) TL := by
  have htag : ∀ t ∈ L1 ++ L2, Tag iss t := by
    intro t ht
    rcases List.mem_append.1 ht with ht | ht
    · exact (h1.tag t ht).1
    · exact (h2.tag t ht).1
  have hseen : ∀ t ∈ L1 ++ L2, t.1 ∈ s1 ∪ s2 := by
    intro t ht
    rcases List.mem_append.1 ht with ht | ht
    · exact Or.inl (h1.tag t ht).2
    · exact Or.inr (h2.tag t ht).2
  obtain ⟨TL, k1, k2, k3, k4⟩ := keepMaximal_tagged iss (L1 ++ L2) (bef iss)
    (by
      intro t ht
      simp only [dominated, List.any_eq_true, Bool.and_eq_true, Bool.not_eq_true', List.mem_map]
      constructor
      · rintro ⟨q, ⟨u, hu, rfl⟩, hd, hb⟩
        refine ⟨u, hu, ?_⟩
        rcases (tag_dominates hist (htag t ht) (htag u hu)).1 hd with h | h
        · have := (tag_beq hist (htag t ht) (htag u hu)).2 h.symm
          rw [this] at hb; cases hb
        · exact h
      · rintro ⟨u, hu, hb⟩
        refine ⟨u.2, ⟨u, hu, rfl⟩, (tag_dominates hist (htag t ht) (htag u hu)).2 (Or.inr hb), ?_⟩
        rw [← Bool.not_eq_true, tag_beq hist (htag t ht) (htag u hu)]
        intro h; rw [h] at hb; exact bef_irrefl hist _ hb)
    (by
      intro t ht u hu
      rw [Bool.and_eq_true, tag_beq hist (htag t ht) (htag u hu), decide_eq_true_eq]
      constructor
      · exact fun h => h.2
      · exact fun h => ⟨tag_val (htag t ht) (htag u hu) h, h⟩)
  -- every received event lies below (or is) an element of L1 ++ L2
  have hcov : ∀ e ∈ s1 ∪ s2, ∃ t ∈ L1 ++ L2, e = t.1 ∨ bef iss e t.1 := by
    rintro e (he | he)
    · obtain ⟨t, ht, h⟩ := h1.cover e he; exact ⟨t, List.mem_append_left _ ht, h⟩
    · obtain ⟨t, ht, h⟩ := h2.cover e he; exact ⟨t, List.mem_append_right _ ht, h⟩
  refine ⟨TL, ?_, k2, ?_, ?_, ?_⟩
  · rw [h1.vals, h2.vals, ← List.map_append, k1]
  · exact fun t ht => ⟨htag t (k3 t ht).1, hseen t (k3 t ht).1⟩
  · intro t ht f hf i hi hm
    obtain ⟨u, hu, h⟩ := hcov f hf
    apply (k3 t ht).2
    refine ⟨u, hu, ?_⟩
    rcases h with h | h
    · rw [← h]; exact ⟨i, hi, hm⟩
    · exact bef_trans hist ⟨i, hi, hm⟩ h
  · intro e he
    obtain ⟨t, ht, h⟩ := hcov e he
    -- a maximal element above t inside the finite list
    have hmax : ∀ t ∈ L1 ++ L2, ∃ u ∈ L1 ++ L2, (t.1 = u.1 ∨ bef iss t.1 u.1) ∧
        ¬ ∃ x ∈ L1 ++ L2, bef iss u.1 x.1 := by
      intro t ht
      by_cases hn : ∃ x ∈ L1 ++ L2, bef iss t.1 x.1
      · obtain ⟨x, hx, hb⟩ := hn
        refine ⟨x, hx, Or.inr hb, ?_⟩
        rintro ⟨y, hy, hb2⟩
        -- t < x < y with all three in two antichains: two are in the same one
        have anti1 : ∀ a ∈ L1, ∀ b ∈ L1, ¬ bef iss a.1 b.1 := fun a ha b hb ⟨i, hi, hm⟩ =>
          h1.maxl a ha b.1 (h1.tag b hb).2 i hi hm
        have anti2 : ∀ a ∈ L2, ∀ b ∈ L2, ¬ bef iss a.1 b.1 := fun a ha b hb ⟨i, hi, hm⟩ =>
          h2.maxl a ha b.1 (h2.tag b hb).2 i hi hm
        rcases List.mem_append.1 ht with a | a <;> rcases List.mem_append.1 hx with b | b <;>
          rcases List.mem_append.1 hy with c | c
        · exact anti1 _ a _ b hb
        · exact anti1 _ a _ b hb
        · exact anti1 _ a _ c (bef_trans hist hb hb2)
        · exact anti2 _ b _ c hb2
        · exact anti1 _ b _ c hb2
        · exact anti2 _ a _ c (bef_trans hist hb hb2)
        · exact anti2 _ a _ b hb
        · exact anti2 _ a _ b hb
      · exact ⟨t, ht, Or.inl rfl, hn⟩
    obtain ⟨u, hu, htu, hum⟩ := hmax t ht
    obtain ⟨x, hx, hxu⟩ := k4 u hu hum
    refine ⟨x, hx, ?_⟩
    rw [hxu]
    rcases h with h | h <;> rcases htu with h' | h'
    · left; rw [h, h']
    · right; rw [h]; exact h'
    · right; rw [← h']; exact h
    · right; exact bef_trans hist h h'
end

theorem mvreg_inv {w} (h : Reachable (MVReg.rdt (T := T)) w) :
    WInv (MVReg.rdt (T := T)) mvInv (fun r s => s.replicaId = r) w := by
  apply reach_inv _ _ _ _ _ _ _ h
  · intro r; exact ⟨[], rfl, by simp, by simp, by simp, by simp⟩
  · intro r; rfl
  · rintro iss e i c _ g he ⟨TL, hTL⟩
    refine ⟨TL, hTL.vals, hTL.nodup, fun t ht => ⟨(hTL.tag t ht).1.mono he, (hTL.tag t ht).2⟩, ?_, ?_⟩
    · intro t ht f hf k hk
      rw [Iss.add_ne] at hk
      · exact hTL.maxl t ht f hf k hk
      · rintro rfl; exact g.not_mem he hf
    · intro x hx
      obtain ⟨t, ht, h⟩ := hTL.cover x hx
      refine ⟨t, ht, ?_⟩
      rw [Iss.add_ne]; exact h
      intro h3; exact g.not_mem he (h3 ▸ (hTL.tag t ht).2)
  · rintro iss c r o n hist g own hnone ⟨TL, hTL⟩ _ hJ
    refine ⟨?_, hJ⟩
    have he : iss ⟨r, n⟩ = none := hnone n (Nat.le_refl _)
    have hclk : ∀ r' j, j < (joinClocks c.state.values).get r' ↔ (⟨r', j⟩ : Ev) ∈ c.seen := by
      intro r' j
      rw [joinClocks_get]
      constructor
      · rintro ⟨p, hp, hj⟩
        rw [hTL.vals] at hp
        obtain ⟨t, ht, rfl⟩ := List.mem_map.1 hp
        obtain ⟨⟨⟨i, hi, _, h2⟩, _⟩, hs⟩ := hTL.tag t ht
        rcases (h2 r' j).1 hj with h3 | h3
        · obtain ⟨i', hi', hsub⟩ := g.issued _ hs
          rw [hi] at hi'; injection hi' with hi'; subst hi'
          exact hsub h3
        · rw [h3]; exact hs
      · intro hs
        obtain ⟨t, ht, h⟩ := hTL.cover _ hs
        refine ⟨t.2, by rw [hTL.vals]; exact List.mem_map.2 ⟨t, ht, rfl⟩, ?_⟩
        obtain ⟨⟨⟨i, hi, _, h2⟩, _⟩, _⟩ := hTL.tag t ht
        rw [h2]
        rcases h with h | ⟨i', hi', hm⟩
        · exact Or.inr h
        · rw [hi] at hi'; injection hi' with hi'; subst hi'
          exact Or.inl hm
    refine ⟨[(⟨r, n⟩, (o, (joinClocks c.state.values).increment c.state.replicaId))], rfl, by simp,
      ?_, ?_, ?_⟩
    · intro t ht
      rw [List.mem_singleton.1 ht]
      refine ⟨⟨⟨_, Iss.add_same _ _ _, rfl, ?_⟩, ?_⟩, Set.mem_insert _ _⟩
      · intro r' j
        simp only [VClock.get_increment, hJ]
        by_cases e : r' = r
        · subst e
          rw [if_pos rfl]
          have h1 : (joinClocks c.state.values).get r' = n := by
            rcases Nat.lt_trichotomy ((joinClocks c.state.values).get r') n with h | h | h
            · have := (hclk r' _).2 ((own _).2 h); omega
            · exact h
            · have := (own _).1 ((hclk r' _).1 h); omega
          rw [h1, own]; simp only [Ev.mk.injEq, true_and]; omega
        · rw [if_neg e, hclk]; simp [e]
      · apply VClock.NoZero.increment
        apply joinClocks_noZero
        intro p hp
        rw [hTL.vals] at hp
        obtain ⟨t, ht, rfl⟩ := List.mem_map.1 hp
        exact (hTL.tag t ht).1.nz
    · intro t ht f hf i hi hm
      rw [List.mem_singleton.1 ht] at hm
      by_cases hfe : f = ⟨r, n⟩
      · subst hfe
        rw [Iss.add_same] at hi
        injection hi with hi; subst hi
        exact g.not_mem he hm
      · rw [Iss.add_ne _ _ hfe] at hi
        exact (hist f i hi).good.not_mem he hm
    · intro e' he'
      refine ⟨_, List.mem_singleton.2 rfl, ?_⟩
      rcases Set.mem_insert_iff.1 he' with rfl | h
      · exact Or.inl rfl
      · exact Or.inr ⟨_, Iss.add_same _ _ _, h⟩
  · rintro iss c d r hist _ _ ⟨L1, h1⟩ ⟨L2, h2⟩ hJ
    exact ⟨mvTL_merge hist h1 h2, hJ⟩

end MV

section LWWs
variable {T : Type}

/-- the write with the greatest timestamp among those received, or the initial value -/
def lwwInv (v0 : T) (iss : Iss (LWW T) (T × Nat)) (c : Copy (LWW T)) : Prop :=
  (∀ e ∈ c.seen, ∀ i, iss e = some i → i.op.2 > i.pre.timestamp) →
  ((c.state = ⟨v0, 0⟩ ∧ c.seen = ∅) ∨
    ∃ e ∈ c.seen, ∃ i, iss e = some i ∧ c.state = ⟨i.op.1, i.op.2⟩) ∧
  (∀ e ∈ c.seen, ∀ i, iss e = some i → i.op.2 ≤ c.state.timestamp)

theorem lww_inv {v0 : T} {w} (h : Reachable (LWW.rdt v0) w) :
    WInv (LWW.rdt v0) (lwwInv v0) (fun _ _ => True) w := by
  apply reach_inv _ _ _ _ _ _ _ h
  · intro r _; exact ⟨Or.inl ⟨rfl, rfl⟩, by simp⟩
  · intro r; trivial
  · intro iss e i c _ g he hI hmon
    have hs : ∀ x ∈ c.seen, (iss.add e i) x = iss x := by
      intro x hx; rw [Iss.add_ne]; rintro rfl; exact g.not_mem he hx
    have := hI (fun x hx k hk => hmon x hx k (by rw [hs x hx]; exact hk))
    refine ⟨?_, ?_⟩
    · rcases this.1 with h | ⟨x, hx, k, hk, h⟩
      · exact Or.inl h
      · exact Or.inr ⟨x, hx, k, by rw [hs x hx]; exact hk, h⟩
    · intro x hx k hk; rw [hs x hx] at hk; exact this.2 x hx k hk
  · intro iss c r o n hist g own hnone _ hI _
    refine ⟨?_, trivial⟩
    intro hmon
    have hI' := hI (fun x hx k hk => hmon x (Set.mem_insert_of_mem _ hx) k hk)
    have hts := hmon ⟨r, n⟩ (Set.mem_insert _ _) _ (Iss.add_same _ _ _)
    simp only at hts
    refine ⟨Or.inr ⟨⟨r, n⟩, Set.mem_insert _ _, _, Iss.add_same _ _ _, rfl⟩, ?_⟩
    intro x hx k hk
    rcases Set.mem_insert_iff.1 hx with rfl | hx
    · rw [Iss.add_same] at hk; injection hk with hk; subst hk
      exact Nat.le_refl _
    · have := hI'.2 x hx k hk
      simp only [LWW.rdt, LWW.set] at *
      omega
  · intro iss c d r hist _ _ hc hd _
    refine ⟨?_, trivial⟩
    intro hmon
    obtain ⟨c1, c2⟩ := hc (fun x hx => hmon x (Or.inl hx))
    obtain ⟨d1, d2⟩ := hd (fun x hx => hmon x (Or.inr hx))
    simp only [LWW.rdt, LWW.merge]
    by_cases hge : d.state.timestamp ≥ c.state.timestamp
    · rw [if_pos hge]
      refine ⟨?_, ?_⟩
      · rcases d1 with ⟨h1, h2⟩ | ⟨x, hx, i, hi, h⟩
        · rcases c1 with ⟨h3, h4⟩ | ⟨y, hy, k, hk, h3⟩
          · left; rw [h1, h2, h4]; simp
          · -- a received write has a positive timestamp, so it cannot lose to the initial value
            exfalso
            have := hmon y (Or.inl hy) k hk
            rw [h1, h3] at hge
            simp only at hge
            omega
        · right; exact ⟨x, Or.inr hx, i, hi, by rw [h]⟩
      · rintro e (he | he) i hi
        · exact Nat.le_trans (c2 e he i hi) hge
        · exact d2 e he i hi
    · rw [if_neg hge]
      refine ⟨?_, ?_⟩
      · rcases c1 with ⟨h1, h2⟩ | ⟨x, hx, i, hi, h⟩
        · exfalso; rw [h1] at hge; exact hge (Nat.zero_le _)
        · right; exact ⟨x, Or.inl hx, i, hi, h⟩
      · rintro e (he | he) i hi
        · exact c2 e he i hi
        · have := d2 e he i hi; omega
end LWWs

end Verif.Crdt
