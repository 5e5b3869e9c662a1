import Verif.Props.Scheduling

/-!
# C28: register allocation

`Alloc rs registers f` (Verif.Solve.Interval): every variable that has a live range gets a register below the limit, and two
variables live at the same instruction get different registers.
-/

namespace Verif.Props
open Verif.Solve.Interval

private theorem live_share {a b : LiveRange}
    (h : ∃ t : Int, (a.start ≤ t ∧ t < a.stop) ∧ b.start ≤ t ∧ t < b.stop) : liveOverlap a b = true := by
  obtain ⟨t, h⟩ := h
  unfold liveOverlap
  rw [Bool.and_eq_true, decide_eq_true_eq, decide_eq_true_eq]
  omega

private theorem live_comm (a b : LiveRange) : liveOverlap a b = liveOverlap b a := by
  unfold liveOverlap; rw [Bool.and_comm]

private theorem live_iff {a b : LiveRange} (ha : a.start < a.stop) (hb : b.start < b.stop) :
    liveOverlap a b = true ↔ ∃ t : Int, (a.start ≤ t ∧ t < a.stop) ∧ b.start ≤ t ∧ t < b.stop :=
  overlaps_iff (a := a.interval) (b := b.interval) ha hb

private theorem regOf_mem {ps : List (Nat × Nat)} {v r : Nat} (h : regOf ps v = some r) : (v, r) ∈ ps := by
  unfold regOf at h
  cases e : ps.reverse.find? fun p => p.1 == v with
  | none => rw [e] at h; cases h
  | some p =>
    rw [e] at h
    simp only [Option.map_some, Option.some.injEq] at h
    have h1 := List.find?_some e
    have h2 := List.mem_of_find?_eq_some e
    simp only [beq_iff_eq] at h1
    obtain ⟨a, b⟩ := p
    simp only at h h1
    subst h h1
    exact List.mem_reverse.1 h2

private theorem regOf_some {ps : List (Nat × Nat)} {v : Nat} (h : v ∈ ps.map (·.1)) : ∃ r, regOf ps v = some r := by
  obtain ⟨p, hp, rfl⟩ := List.mem_map.1 h
  unfold regOf
  cases e : ps.reverse.find? fun q => q.1 == p.1 with
  | none =>
    have := List.find?_eq_none.1 e p (List.mem_reverse.2 hp)
    simp at this
  | some q => exact ⟨q.2, rfl⟩

private theorem alloc_unfold (rs : List LiveRange) (registers : Nat) (ps : List (Nat × Nat)) :
    isValidAllocation rs registers ps = true ↔ ps.length = rs.length ∧ (keys ps).length = rs.length ∧
      (∀ v r, regOf ps v = some r → r < registers) ∧
      ∀ i j, i < j → j < rs.length → liveOverlap (rs.getD i ⟨0, 0, 0⟩) (rs.getD j ⟨0, 0, 0⟩) = true →
        regOf ps (varAt rs i) ≠ regOf ps (varAt rs j) := by
  have hkeys : ∀ v r, regOf ps v = some r → v ∈ keys ps := by
    intro v r h
    unfold keys
    rw [List.mem_eraseDups]
    exact List.mem_map.2 ⟨_, regOf_mem h, rfl⟩
  unfold isValidAllocation
  by_cases h0 : ps.length ≠ rs.length
  · rw [if_pos h0]
    constructor
    · intro h; cases h
    · intro h; exact absurd h.1 h0
  · rw [if_neg h0]
    rw [not_not] at h0
    by_cases hc : (keys ps).length ≠ rs.length ∨
        (keys ps).any (fun v => (regOf ps v).any fun r => decide (r ≥ registers)) = true
    · rw [if_pos hc]
      constructor
      · intro h; cases h
      · rintro ⟨_, h1, h2, _⟩
        rcases hc with h | h
        · exact absurd h1 h
        · obtain ⟨v, _, hge⟩ := List.any_eq_true.1 h
          cases e : regOf ps v with
          | none => rw [e] at hge; cases hge
          | some r =>
            rw [e] at hge
            simp only [Option.any_some, decide_eq_true_eq] at hge
            have := h2 v r e
            omega
    · rw [if_neg hc]
      rw [not_or, not_not] at hc
      have h2 : ∀ v r, regOf ps v = some r → r < registers := by
        intro v r e
        by_contra hge
        refine hc.2 (List.any_eq_true.2 ⟨v, hkeys v r e, ?_⟩)
        rw [e]
        exact decide_eq_true (by omega)
      rw [List.all_eq_true]
      constructor
      · intro h
        refine ⟨h0, hc.1, h2, ?_⟩
        intro i j hij hj hov he
        have := List.all_eq_true.1 (h i (List.mem_range.2 (by omega))) j (List.mem_range'_1.2 (by omega))
        rw [hov, decide_eq_true he] at this
        cases this
      · rintro ⟨_, _, _, h⟩ i hi
        rw [List.all_eq_true]
        intro j hj
        have hj' := List.mem_range'_1.1 hj
        have hi' := List.mem_range.1 hi
        cases hov : liveOverlap (rs.getD i ⟨0, 0, 0⟩) (rs.getD j ⟨0, 0, 0⟩) with
        | false => rfl
        | true => rw [decide_eq_false (h i j (by omega) (by omega) hov)]; rfl

private theorem eraseDups_nodup {l : List Nat} (h : l.Nodup) : l.eraseDups = l := by
  induction l with
  | nil => rfl
  | cons a l ih =>
    rw [List.nodup_cons] at h
    rw [List.eraseDups_cons]
    have : l.filter (fun b => !b == a) = l := by
      rw [List.filter_eq_self]
      intro b hb
      have : b ≠ a := fun e => h.1 (e ▸ hb)
      simpa using this
    rw [this, ih h.2]

private theorem getD_eq {rs : List LiveRange} {i : Nat} (h : i < rs.length) : rs.getD i ⟨0, 0, 0⟩ = rs[i] := by
  simp [List.getD_eq_getElem?_getD, h]

/-- An accepted allocation that mentions every variable is an allocation.
Missing for the full property: the checker does not test that the variables of the ranges are the ones listed
(`C28_unlisted_fails`). -/
theorem C28_valid_partial (rs : List LiveRange) (registers : Nat) (ps : List (Nat × Nat))
    (hl : ∀ r ∈ rs, r.var ∈ ps.map (·.1)) (h : isValidAllocation rs registers ps = true) :
    Alloc rs registers (fun v => (regOf ps v).getD 0) := by
  obtain ⟨_, _, h2, h3⟩ := (alloc_unfold rs registers ps).1 h
  refine ⟨?_, ?_⟩
  · intro r hr
    obtain ⟨k, hk⟩ := regOf_some (hl r hr)
    show (regOf ps r.var).getD 0 < registers
    rw [hk]
    exact h2 _ _ hk
  · intro r hr r' hr' hv hs he
    obtain ⟨k, hk⟩ := regOf_some (hl r hr)
    obtain ⟨k', hk'⟩ := regOf_some (hl r' hr')
    simp only [hk, hk', Option.getD_some] at he
    subst he
    obtain ⟨i, hi, rfl⟩ := List.mem_iff_getElem.1 hr
    obtain ⟨j, hj, rfl⟩ := List.mem_iff_getElem.1 hr'
    have hij : i ≠ j := by
      intro e; subst e; exact hv rfl
    have key : ∀ a b (ha : a < rs.length) (hb : b < rs.length), a < b →
        liveOverlap rs[a] rs[b] = true → regOf ps rs[a].var ≠ regOf ps rs[b].var := by
      intro a b ha hb hab hov
      have := h3 a b hab hb (by rw [getD_eq ha, getD_eq hb]; exact hov)
      unfold varAt at this
      rw [getD_eq ha, getD_eq hb] at this
      exact this
    rcases Nat.lt_or_gt_of_ne hij with hlt | hgt
    · exact key i j hi hj hlt (live_share hs) (hk.trans hk'.symm)
    · exact key j i hj hi hgt (by rw [live_comm]; exact live_share hs) (hk'.trans hk.symm)

/-- The checker accepts an allocation that gives one of two simultaneously live variables no register at all. -/
theorem C28_unlisted_fails : isValidAllocation [⟨0, 0, 5⟩, ⟨1, 0, 5⟩] 2 [(0, 0), (9, 1)] = true ∧
    regOf [(0, 0), (9, 1)] 1 = none := by decide +kernel

/-- An accepted spill certificate that names no variable twice proves that no allocation exists, when no range is empty.
Missing for the full property: repeated variables (`C28_repeated_spill_fails`). -/
theorem C28_spill_partial (rs : List LiveRange) (registers : Nat) (w : List Nat)
    (hne : ∀ r ∈ rs, r.start < r.stop) (hn : w.Nodup) (h : isSpillCertificate rs registers w = true) :
    ∀ f, ¬ Alloc rs registers f := by
  intro f hf
  unfold isSpillCertificate at h
  split at h
  · cases h
  · next hlen =>
    have byVar_mem : ∀ v r, byVar rs v = some r → r ∈ rs ∧ r.var = v := by
      intro v r e
      unfold byVar at e
      have h1 := List.find?_some e
      simp only [beq_iff_eq] at h1
      exact ⟨List.mem_reverse.1 (List.mem_of_find?_eq_some e), h1⟩
    have gen : ∀ w : List Nat, pairwiseLive rs w = true → (∀ v ∈ w, ∃ r, byVar rs v = some r) ∧
        w.Pairwise fun v u => ∀ r r', byVar rs v = some r → byVar rs u = some r' → liveOverlap r r' = true := by
      intro w
      induction w with
      | nil => intro _; simp
      | cons v w ih =>
        intro hw
        unfold pairwiseLive at hw
        rw [Bool.and_eq_true] at hw
        obtain ⟨hv, hw⟩ := hw
        obtain ⟨i1, i2⟩ := ih hw
        cases e : byVar rs v with
        | none => rw [e] at hv; cases hv
        | some rv =>
          rw [e] at hv
          simp only at hv
          rw [List.all_eq_true] at hv
          refine ⟨?_, ?_⟩
          · intro x hx
            rcases List.mem_cons.1 hx with rfl | hx
            · exact ⟨rv, e⟩
            · exact i1 x hx
          · rw [List.pairwise_cons]
            refine ⟨?_, i2⟩
            intro u hu r r' hr hr'
            rw [e] at hr
            cases hr
            have := hv u hu
            rw [hr'] at this
            exact this
    obtain ⟨g1, g2⟩ := gen w h
    have := clique_needs (f := f) hn (fun v hv => by
        obtain ⟨r, hr⟩ := g1 v hv
        obtain ⟨m, e⟩ := byVar_mem v r hr
        rw [← e]
        exact hf.1 r m) (by
      intro v hv u hu hvu
      obtain ⟨r, hr⟩ := g1 v hv
      obtain ⟨r', hr'⟩ := g1 u hu
      obtain ⟨m, e⟩ := byVar_mem v r hr
      obtain ⟨m', e'⟩ := byVar_mem u r' hr'
      have key : liveOverlap r r' = true := by
        obtain ⟨a, ha, rfl⟩ := List.mem_iff_getElem.1 hv
        obtain ⟨b, hb, rfl⟩ := List.mem_iff_getElem.1 hu
        have hab : a ≠ b := fun e => hvu (by subst e; rfl)
        rcases Nat.lt_or_gt_of_ne hab with hlt | hgt
        · exact List.pairwise_iff_getElem.1 g2 a b ha hb hlt r r' hr hr'
        · rw [live_comm]; exact List.pairwise_iff_getElem.1 g2 b a hb ha hgt r' r hr' hr
      rw [live_iff (hne r m) (hne r' m')] at key
      have := hf.2 r m r' m' (by rw [e, e']; exact hvu) key
      rw [e, e'] at this
      exact this)
    omega

example : isSpillCertificate [⟨7, 0, 4⟩, ⟨8, 1, 3⟩, ⟨9, 2, 6⟩] 2 [7, 8, 9] = true ∧ [7, 8, 9].Nodup := by decide +kernel

/-- A certificate that repeats a variable is accepted although one register is enough. -/
theorem C28_repeated_spill_fails : isSpillCertificate [⟨7, 0, 4⟩] 1 [7, 7] = true ∧
    Alloc [⟨7, 0, 4⟩] 1 (fun _ => 0) := by
  refine ⟨by decide +kernel, ?_, ?_⟩
  · intro r _; show 0 < 1; omega
  · intro r hr r' hr' hv
    rw [List.mem_singleton.1 hr, List.mem_singleton.1 hr'] at hv
    exact absurd rfl hv

/-- The allocator, on blocks where each variable has one non-empty range: an allocation it returns is accepted by the
checker and is an allocation; a spill it reports names different variables, is accepted as a certificate, no allocation
exists, and the pressure it reports is above the limit. -/
theorem C28_allocate_partial (rs : List LiveRange) (registers : Nat) (hne : ∀ r ∈ rs, r.start < r.stop)
    (hlow : ∀ r ∈ rs, -2 ^ 63 ≤ r.start) (hv : (rs.map LiveRange.var).Nodup) :
    (∀ ps, allocate rs registers = .allocated ps →
      isValidAllocation rs registers ps = true ∧ Alloc rs registers (fun v => (regOf ps v).getD 0)) ∧
    (∀ p w, allocate rs registers = .spill p w → w.Nodup ∧ isSpillCertificate rs registers w = true ∧
      (∀ f, ¬ Alloc rs registers f) ∧ p = registerPressure rs ∧ registers < p) := by
  have hne' : NonEmpty (rs.map LiveRange.interval) := by
    intro t ht
    obtain ⟨r, hr, rfl⟩ := List.mem_map.1 ht
    exact hne r hr
  have hlow' : ∀ t ∈ rs.map LiveRange.interval, -2 ^ 63 ≤ t.start := by
    intro t ht
    obtain ⟨r, hr, rfl⟩ := List.mem_map.1 ht
    exact hlow r hr
  have vinj : ∀ i j (hi : i < rs.length) (hj : j < rs.length), rs[i].var = rs[j].var → i = j := by
    intro i j hi hj e
    have := List.Nodup.getElem_inj_iff hv (i := i) (j := j) (hi := by simpa using hi) (hj := by simpa using hj)
    rw [← this]
    simpa using e
  have at_int : ∀ i (hi : i < rs.length), at_ (rs.map LiveRange.interval) i = rs[i].interval := by
    intro i hi
    rw [at_eq (by simpa using hi)]
    simp
  refine ⟨?_, ?_⟩
  · intro ps h
    unfold allocate at h
    cases e : scheduleOrOverflow (rs.map LiveRange.interval) registers with
    | infeasible w => rw [e] at h; cases h
    | feasible a =>
      rw [e] at h
      simp only [Allocation.allocated.injEq] at h
      subst h
      obtain ⟨hvs, hs⟩ := C27_feasible_partial _ _ _ hne' hlow' e
      have hl := (C27_valid_sound _ _ _ hvs).1
      rw [List.length_map] at hl
      have hfst : ((rs.zip a).map fun p => (p.1.var, p.2)).map (·.1) = rs.map LiveRange.var := by
        rw [List.map_map]
        show (rs.zip a).map (LiveRange.var ∘ Prod.fst) = _
        rw [← List.map_map, List.map_fst_zip (by omega)]
      have hlen : ((rs.zip a).map fun p => (p.1.var, p.2)).length = rs.length := by
        rw [List.length_map, List.length_zip]; omega
      have hreg : ∀ i (hi : i < rs.length), regOf ((rs.zip a).map fun p => (p.1.var, p.2)) rs[i].var =
          some (a.getD i 0) := by
        intro i hi
        obtain ⟨k, hk⟩ := regOf_some (ps := (rs.zip a).map fun p => (p.1.var, p.2)) (v := rs[i].var)
          (by rw [hfst]; exact List.mem_map.2 ⟨_, List.getElem_mem hi, rfl⟩)
        rw [hk]
        obtain ⟨j, hj, ej⟩ := List.mem_iff_getElem.1 (regOf_mem hk)
        rw [List.getElem_map, List.getElem_zip] at ej
        simp only [Prod.mk.injEq] at ej
        rw [hlen] at hj
        have := vinj j i hj hi ej.1
        subst this
        rw [← ej.2]
        simp [List.getD_eq_getElem?_getD, show j < a.length by omega]
      have hval : isValidAllocation rs registers ((rs.zip a).map fun p => (p.1.var, p.2)) = true := by
        rw [alloc_unfold]
        refine ⟨hlen, ?_, ?_, ?_⟩
        · unfold keys
          rw [hfst, eraseDups_nodup hv]
          simp
        · intro v r hr
          have hm := regOf_mem hr
          obtain ⟨j, hj, ej⟩ := List.mem_iff_getElem.1 hm
          rw [List.getElem_map, List.getElem_zip] at ej
          simp only [Prod.mk.injEq] at ej
          rw [hlen] at hj
          have := hs.1 j (by simpa using hj)
          simp only [List.getD_eq_getElem?_getD, List.getElem?_eq_getElem (show j < a.length by omega),
            Option.getD_some] at this
          omega
        · intro i j hij hj hov
          have hi : i < rs.length := by omega
          unfold varAt
          rw [getD_eq hi, getD_eq hj] at hov ⊢
          rw [hreg i hi, hreg j hj]
          intro he
          have := hs.2 i j (by simpa using hi) (by simpa using hj) (by omega) (by
            simp only [List.getElem_map]
            exact (live_iff (hne _ (List.getElem_mem hi)) (hne _ (List.getElem_mem hj))).1 hov)
          exact this (Option.some.inj he)
      refine ⟨hval, C28_valid_partial rs registers _ ?_ hval⟩
      intro r hr
      rw [hfst]
      exact List.mem_map.2 ⟨r, hr, rfl⟩
  · intro p w h
    unfold allocate at h
    cases e : scheduleOrOverflow (rs.map LiveRange.interval) registers with
    | feasible a => rw [e] at h; cases h
    | infeasible ix =>
      rw [e] at h
      simp only [Allocation.spill.injEq] at h
      obtain ⟨rfl, rfl⟩ := h
      obtain ⟨hn, hw, hno⟩ := C27_infeasible _ _ _ e
      have hw' := hw
      unfold isOverflowWitness at hw'
      split at hw'
      · cases hw'
      · next hlen =>
        have hpair : ∀ ix : List Nat, pairwiseOverlap (rs.map LiveRange.interval) ix = true →
            (∀ i ∈ ix, i < rs.length) ∧ ix.Pairwise fun i j => overlaps (at_ (rs.map LiveRange.interval) i)
              (at_ (rs.map LiveRange.interval) j) = true := by
          intro ix
          induction ix with
          | nil => intro _; simp
          | cons i ix ih =>
            intro hp
            unfold pairwiseOverlap at hp
            rw [Bool.and_eq_true, Bool.and_eq_true, List.all_eq_true, decide_eq_true_eq] at hp
            obtain ⟨⟨a1, a2⟩, a3⟩ := hp
            obtain ⟨b1, b2⟩ := ih a3
            refine ⟨?_, ?_⟩
            · intro k hk
              rcases List.mem_cons.1 hk with rfl | hk
              · simpa using a1
              · exact b1 k hk
            · rw [List.pairwise_cons]
              refine ⟨?_, b2⟩
              intro k hk
              have := a2 k hk
              rw [Bool.and_eq_true] at this
              exact this.2
        obtain ⟨q1, q2⟩ := hpair ix hw'
        have hvar : ∀ i (hi : i < rs.length), varAt rs i = rs[i].var := by
          intro i hi
          unfold varAt
          rw [getD_eq hi]
        have hnd : (ix.map (varAt rs)).Nodup := by
          refine (List.nodup_map_iff_inj_on hn).2 ?_
          intro x hx y hy hxy
          rw [hvar x (q1 x hx), hvar y (q1 y hy)] at hxy
          exact vinj x y _ _ hxy
        have hby : ∀ i (hi : i < rs.length), byVar rs rs[i].var = some rs[i] := by
          intro i hi
          unfold byVar
          cases ef : rs.reverse.find? fun r => r.var == rs[i].var with
          | none =>
            have := List.find?_eq_none.1 ef rs[i] (List.mem_reverse.2 (List.getElem_mem hi))
            simp at this
          | some r =>
            have h1 := List.find?_some ef
            simp only [beq_iff_eq] at h1
            obtain ⟨j, hj, rfl⟩ := List.mem_iff_getElem.1 (List.mem_reverse.1 (List.mem_of_find?_eq_some ef))
            have := vinj j i hj hi h1
            subst this
            rfl
        have hcert : isSpillCertificate rs registers (ix.map (varAt rs)) = true := by
          unfold isSpillCertificate
          rw [if_neg (by rw [List.length_map]; exact hlen)]
          clear hw hw' hlen e hn hnd
          induction ix with
          | nil => rfl
          | cons i ix ih =>
            rw [List.pairwise_cons] at q2
            have hi := q1 i (by simp)
            simp only [List.map_cons]
            unfold pairwiseLive
            rw [hvar i hi, hby i hi]
            rw [Bool.and_eq_true]
            refine ⟨?_, ih (fun k hk => q1 k (by simp [hk])) q2.2⟩
            simp only
            rw [List.all_eq_true]
            intro u hu
            obtain ⟨k, hk, rfl⟩ := List.mem_map.1 hu
            have hkl := q1 k (by simp [hk])
            rw [hvar k hkl, hby k hkl]
            have := q2.1 k hk
            rw [at_int i hi, at_int k hkl] at this
            exact this
        refine ⟨hnd, hcert, C28_spill_partial rs registers _ hne hnd hcert, rfl, ?_⟩
        by_contra hle
        obtain ⟨f, hf⟩ := ((C27_decides_partial _ registers hne' hlow').2).2 (by omega)
        exact hno f hf

example : ((([⟨7, 0, 4⟩, ⟨8, 1, 3⟩, ⟨9, 3, 6⟩] : List LiveRange).map LiveRange.var).Nodup) ∧
    allocate [⟨7, 0, 4⟩, ⟨8, 1, 3⟩, ⟨9, 3, 6⟩] 2 = .allocated [(7, 0), (8, 1), (9, 1)] ∧
    allocate [⟨7, 0, 4⟩, ⟨8, 1, 3⟩, ⟨9, 2, 6⟩] 2 = .spill 3 [7, 8, 9] := by decide +kernel

end Verif.Props
