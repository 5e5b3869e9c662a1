import Verif.Sat.CdclBack
/-!
# Clause deletion keeps the invariant and does not panic
-/

namespace Verif.Sat
open Verif.Proof

section
variable {F : List Clause} {m : Nat} {S : Solver}

theorem takeWhile_pos {L : List Nat} {x : Nat} (h : x ∈ L) :
    L[(L.takeWhile (· ≠ x)).length]? = some x := by
  induction L with
  | nil => cases h
  | cons a L ih =>
    by_cases e : a = x
    · subst e; simp
    · rcases List.mem_cons.1 h with h | h
      · exact absurd h.symm e
      · rw [List.takeWhile_cons_of_pos (by simpa using e), List.length_cons, List.getElem?_cons_succ]
        exact ih h

theorem surv_low {N k : Nat} {del : Nat → Bool} (hk : k ≤ N) (hd : ∀ i, del i = true → k ≤ i) {i : Nat} (hi : i < k) :
    ((List.range N).filter fun i => !del i)[i]? = some i := by
  have hr : List.range N = List.range k ++ (List.range (N - k)).map (k + ·) := by
    rw [← List.range_add, Nat.add_sub_cancel' hk]
  have hf : (List.range k).filter (fun i => !del i) = List.range k := by
    rw [List.filter_eq_self]
    intro j hj
    have hj := List.mem_range.1 hj
    cases hde : del j with
    | false => rfl
    | true => have := hd j hde; omega
  rw [hr, List.filter_append, hf, List.getElem?_append_left (by simpa using hi), List.getElem?_range hi]

theorem rebuild_ok {cs : List Clause} (hn : ∀ c ∈ cs, c.Nodup) (k : Nat) (hk : k ≤ cs.length) :
    let W := (List.range k).foldl (rewatch cs) (fun _ => [])
    Wat cs W ∧ (∀ l, ∀ w ∈ W l, w.clause < k) ∧
      ∀ ci < k, ∀ c, cs[ci]? = some c → 2 ≤ c.length → ∀ l ∈ c.take 2, ∃ w ∈ W l, w.clause = ci := by
  induction k with
  | zero =>
    refine ⟨⟨(fun l w hw => by cases hw), fun l => List.nodup_nil⟩, (fun l w hw => by cases hw), fun ci h => by omega⟩
  | succ k ih =>
    obtain ⟨h1, h2, h3⟩ := ih (by omega)
    rw [List.range_succ, List.foldl_append]
    revert h1 h2 h3
    generalize (List.range k).foldl (rewatch cs) (fun _ => []) = W
    intro h1 h2 h3
    obtain ⟨c, hc⟩ : ∃ c, cs[k]? = some c := ⟨cs[k], by simp⟩
    have hget : cs.getD k [] = c := by simp [List.getD, hc]
    show Wat cs (rewatch cs W k) ∧ (∀ l, ∀ w ∈ rewatch cs W k l, w.clause < k + 1) ∧
      ∀ ci < k + 1, ∀ c, cs[ci]? = some c → 2 ≤ c.length → ∀ l ∈ c.take 2, ∃ w ∈ rewatch cs W k l, w.clause = ci
    unfold rewatch
    rw [hget]
    have hshort : c.length < 2 → Wat cs W ∧ (∀ l, ∀ w ∈ W l, w.clause < k + 1) ∧
      ∀ ci < k + 1, ∀ c, cs[ci]? = some c → 2 ≤ c.length → ∀ l ∈ c.take 2, ∃ w ∈ W l, w.clause = ci := by
      intro hlt
      refine ⟨h1, fun l w hw => Nat.lt_succ_of_lt (h2 l w hw), ?_⟩
      intro ci hci d hd hd2
      by_cases e : ci = k
      · subst e
        rw [hc] at hd; cases hd; omega
      · exact h3 ci (by omega) d hd hd2
    match c, hc, hshort with
    | [], _, hs => exact hs (by simp)
    | [_], _, hs => exact hs (by simp)
    | a :: b :: rest, hc, _ =>
      have hab : a ≠ b := by
        intro e; subst e
        have := hn _ (List.mem_of_getElem? hc)
        simp at this
      refine ⟨h1.push hc hab (fun l w hw => by have := h2 l w hw; omega), ?_, ?_⟩
      · intro l w hw
        have hw : w ∈ pushWatch W k a b (rest.length + 2 == 2) l := hw
        rw [pushWatch_at hab, List.mem_append] at hw
        rcases hw with hw | hw
        · exact Nat.lt_succ_of_lt (h2 l w hw)
        · have : w.clause = k := by
            split at hw
            · simp at hw; rw [hw]
            · split at hw
              · simp at hw; rw [hw]
              · cases hw
          omega
      · intro ci hci d hd hd2 l hl
        by_cases e : ci = k
        · subst e
          rw [hc] at hd; cases hd
          refine push_new hab ?_
          simpa using hl
        · obtain ⟨w, hw, e'⟩ := h3 ci (by omega) d hd hd2 l hl
          exact ⟨w, push_mem hab hw, e'⟩

/-- What a deletion leaves alone. -/
structure Comp (S S' : Solver) : Prop where
  n : S'.n = S.n
  trail : S'.trail = S.trail
  lim : S'.lim = S.lim
  qhead : S'.qhead = S.qhead
  empty : S'.empty = S.empty
  nOrig : S'.nOrig = S.nOrig
  log : S'.log = S.log
  limit : S'.limit = S.limit
  reduceOn : S'.reduceOn = S.reduceOn
  len : S'.clauses.length ≤ S.clauses.length
  low : S.nOrig ≤ S.clauses.length → S.nOrig ≤ S'.clauses.length
  why : (∀ v ci, S.reason v = some ci → ci < S.clauses.length) →
    ∀ v ci, S'.reason v = some ci → ci < S.clauses.length

theorem Comp.refl (S : Solver) : Comp S S :=
  ⟨rfl, rfl, rfl, rfl, rfl, rfl, rfl, rfl, rfl, Nat.le_refl _, id, fun h => h⟩

theorem badReason_false (hgood : ∀ v ci, S.reason v = some ci → ci < S.clauses.length) (v : Nat) :
    S.badReason v = false := by
  unfold Solver.badReason
  cases hr : S.reason v with
  | none => rfl
  | some ci => simpa using hgood v ci hr

theorem compact_ok (h : Inv F m S) {del : Nat → Bool} (hm : m ≤ S.nOrig) (hd : ∀ ci, del ci = true → S.nOrig ≤ ci)
    (hnl : S.nOrig ≤ S.clauses.length) (hlock : ∀ ci, del ci = true → ∀ i l, S.trail[i]? = some l → 0 < lv S.lim i →
      S.reason l.var ≠ some ci)
    (hgood : ∀ v < S.n, S.badReason v = false) :
    ∃ S', S.compact del = some S' ∧ Inv F m S' ∧ Comp S S' := by
  unfold Solver.compact
  simp only
  split
  · exact ⟨S, rfl, h, Comp.refl S⟩
  rw [if_neg (c := (List.range S.n).any S.badReason = true) (by
    rw [List.any_eq_true]
    rintro ⟨v, hv1, hv⟩
    rw [hgood v (List.mem_range.1 hv1)] at hv
    cases hv)]
  have hlow : ∀ i < S.nOrig, ((List.range S.clauses.length).filter fun i => !del i)[i]? = some i :=
    fun i hi => surv_low hnl hd hi
  have hpos : ∀ ci < S.clauses.length, del ci = false →
      ((List.range S.clauses.length).filter fun i => !del i)[(((List.range S.clauses.length).filter
        fun i => !del i).takeWhile (· ≠ ci)).length]? = some ci := by
    intro ci hci hdc
    exact takeWhile_pos (List.mem_filter.2 ⟨List.mem_range.2 hci, by simp [hdc]⟩)
  have hrng : ∀ i ∈ (List.range S.clauses.length).filter fun i => !del i, i < S.clauses.length :=
    fun i hi => List.mem_range.1 (List.mem_filter.1 hi).1
  have hlen : ((List.range S.clauses.length).filter fun i => !del i).length ≤ S.clauses.length := by
    have := List.length_filter_le (fun i => !del i) (List.range S.clauses.length)
    simpa using this
  revert hlow hpos hrng hlen
  generalize ((List.range S.clauses.length).filter fun i => !del i) = surv
  intro hlow hpos hrng hlen
  have hget : ∀ {i ci : Nat}, surv[i]? = some ci →
      ∃ c, S.clauses[ci]? = some c ∧ (surv.map fun i => S.clauses.getD i [])[i]? = some c := by
    intro i ci hi
    have hlt := hrng ci (List.mem_of_getElem? hi)
    refine ⟨S.clauses[ci], by simp, ?_⟩
    rw [List.getElem?_map, hi]
    simp [List.getD, hlt]
  have hmem : ∀ c ∈ surv.map (fun i => S.clauses.getD i []), c ∈ S.clauses := by
    intro c hc
    obtain ⟨i, hi, rfl⟩ := List.mem_map.1 hc
    have hlt := hrng i hi
    simp [List.getD, hlt]
  have hbelow : ∀ i < m, (surv.map fun i => S.clauses.getD i [])[i]? = S.clauses[i]? := by
    intro i hi
    obtain ⟨c, h1, h2⟩ := hget (hlow i (by omega))
    rw [h1, h2]
  have hnlen : S.nOrig ≤ surv.length := by
    rcases Nat.eq_zero_or_pos S.nOrig with h0 | h0
    · omega
    · have := (List.getElem?_eq_some_iff.1 (hlow (S.nOrig - 1) (by omega))).1
      omega
  obtain ⟨w1, _, w3⟩ := rebuild_ok (cs := surv.map fun i => S.clauses.getD i [])
    (fun c hc => h.core.clsN c (hmem c hc)) _ (Nat.le_refl _)
  refine ⟨_, rfl, ⟨?_, ?_, ?_, ?_, ?_⟩, ?_⟩
  · have hc := h.core
    refine
      { nodup := hc.nodup, val := hc.val, rng := hc.rng, limS := hc.limS, limB := hc.limB, lev := hc.lev,
        qle := hc.qle, limQ := hc.limQ, whyN := ?_, whyC := ?_, zeroU := hc.zeroU,
        clsU := fun c hm => hc.clsU c (hmem c hm), clsR := fun c hm => hc.clsR c (hmem c hm),
        clsN := fun c hm => hc.clsN c (hmem c hm), clsT := fun c hm => hc.clsT c (hmem c hm), logU := hc.logU, logR := hc.logR, empU := hc.empU, heapO := hc.heapO,
        heapR := hc.heapR }
    · intro i l hi h0 hr
      refine hc.whyN i l hi h0 ?_
      have hr' : (S.reason l.var).map _ = none := hr
      simpa using hr'
    · intro i l cj hi h0 hr
      have hr' : (S.reason l.var).map (fun ci => if del ci = true then ci else (surv.takeWhile (· ≠ ci)).length) =
        some cj := hr
      rw [Option.map_eq_some_iff] at hr'
      obtain ⟨ci, hci, rfl⟩ := hr'
      obtain ⟨c, h1, h2⟩ := hc.whyC i l ci hi h0 hci
      have hdc : del ci = false := by
        cases hde : del ci with
        | false => rfl
        | true => exact absurd hci (hlock ci hde i l hi h0)
      rw [if_neg (by simp [hdc])]
      obtain ⟨c', h3, h4⟩ := hget (hpos ci (List.getElem?_eq_some_iff.1 h1).1 hdc)
      rw [h1] at h3; cases h3
      exact ⟨c, h4, h2⟩
  · refine ⟨?_, ?_, ?_, ?_⟩
    · intro c hc
      rcases h.orig.orig c hc with h1 | ⟨ci, hci, c', hc', hs⟩
      · exact .inl h1
      · exact .inr ⟨ci, hci, c', (hbelow ci hci).trans hc', hs⟩
    · show m ≤ (surv.map fun i => S.clauses.getD i []).length
      rw [List.length_map]; omega
    · intro ci hci l hl he
      exact h.orig.unit ci hci l ((hbelow ci hci).symm.trans hl) he
    · intro ci hci hl
      exact h.orig.emp ci hci ((hbelow ci hci).symm.trans hl)
  · exact w1
  · intro ci hci c hc
    exact w3 ci (by rw [List.length_map]; omega) c hc
  · intro ci hci c hc
    exact h.w1 ci hci c ((hbelow ci hci).symm.trans hc)
  · refine ⟨rfl, rfl, rfl, rfl, rfl, rfl, rfl, rfl, rfl, ?_, fun _ => ?_, ?_⟩
    · show (surv.map fun i => S.clauses.getD i []).length ≤ _
      rw [List.length_map]; exact hlen
    · show _ ≤ (surv.map fun i => S.clauses.getD i []).length
      rw [List.length_map]; exact hnlen
    · intro hgood v cj hr
      have hr' : (S.reason v).map (fun ci => if del ci = true then ci else (surv.takeWhile (· ≠ ci)).length) =
        some cj := hr
      rw [Option.map_eq_some_iff] at hr'
      obtain ⟨ci, hci, rfl⟩ := hr'
      split
      · exact hgood _ _ hci
      · rename_i hne
        have hlt := (List.getElem?_eq_some_iff.1 (hpos ci (hgood _ _ hci) (by simpa using hne))).1
        omega

theorem reduceDb_ok (h : Inv F m S) (drop : Nat → Bool) (hm : m ≤ S.nOrig) (hnl : S.nOrig ≤ S.clauses.length)
    (hgood : ∀ v ci, S.reason v = some ci → ci < S.clauses.length) :
    ∃ S', S.reduceDb drop = some S' ∧ Inv F m S' ∧ Comp S S' := by
  unfold Solver.reduceDb
  rw [if_neg]
  · refine compact_ok h hm ?_ hnl ?_ fun v _ => badReason_false hgood v
    · intro ci hd
      simp only [Bool.and_eq_true, decide_eq_true_eq] at hd
      exact hd.1.1.1
    · intro ci hd i l hl _ e
      simp only [Bool.and_eq_true, Bool.not_eq_true'] at hd
      have hk := hd.1.1.2
      unfold Solver.locked at hk
      rw [List.any_eq_false] at hk
      exact hk l (List.mem_of_getElem? hl) (by simp [e])
  · rw [List.any_eq_true]
    rintro ⟨l, _, hv⟩
    rw [badReason_false hgood] at hv
    cases hv

/-- Whenever a deletion does not panic, the invariant is kept. -/
theorem compact_some (h : Inv F m S) {del : Nat → Bool} {S' : Solver} (hm : m ≤ S.nOrig)
    (hd : ∀ ci, del ci = true → S.nOrig ≤ ci) (hnl : S.nOrig ≤ S.clauses.length)
    (hlock : ∀ ci, del ci = true → ∀ i l, S.trail[i]? = some l → 0 < lv S.lim i →
      S.reason l.var ≠ some ci) (e : S.compact del = some S') :
    Inv F m S' ∧ Comp S S' := by
  by_cases hall : ((List.range S.clauses.length).all fun i => !del i) = true
  · unfold Solver.compact at e
    simp only [hall, if_true] at e
    cases e
    exact ⟨h, Comp.refl S⟩
  · have hb : ∀ v < S.n, S.badReason v = false := by
      intro v hv
      cases hbv : S.badReason v with
      | false => rfl
      | true =>
        unfold Solver.compact at e
        simp only at e
        rw [if_neg hall, if_pos (List.any_eq_true.2 ⟨v, List.mem_range.2 hv, hbv⟩)] at e
        cases e
    obtain ⟨S1, e1, h1, h2⟩ := compact_ok h hm hd hnl hlock hb
    rw [e] at e1; cases e1
    exact ⟨h1, h2⟩

theorem reduceDb_some (h : Inv F m S) {drop : Nat → Bool} {S' : Solver} (hm : m ≤ S.nOrig)
    (hnl : S.nOrig ≤ S.clauses.length) (e : S.reduceDb drop = some S') : Inv F m S' ∧ Comp S S' := by
  unfold Solver.reduceDb at e
  split at e
  · cases e
  · refine compact_some h hm ?_ hnl ?_ e
    · intro ci hd
      simp only [Bool.and_eq_true, decide_eq_true_eq] at hd
      exact hd.1.1.1
    · intro ci hd i l hl _ e
      simp only [Bool.and_eq_true, Bool.not_eq_true'] at hd
      have hk := hd.1.1.2
      unfold Solver.locked at hk
      rw [List.any_eq_false] at hk
      exact hk l (List.mem_of_getElem? hl) (by simp [e])

/-- The bounds that keep clause deletion within the database. -/
structure Bounds (m : Nat) (S : Solver) : Prop where
  mle : m ≤ S.nOrig
  nle : S.nOrig ≤ S.clauses.length
  why : ∀ v ci, S.reason v = some ci → ci < S.nOrig + S.limit ∨ ci < S.clauses.length
  live : S.reduceOn = true → S.clauses.length < S.nOrig + Nat.max S.limit 1

/-- `Bounds` right after a clause was learned. -/
structure Bounds1 (m : Nat) (S : Solver) : Prop where
  mle : m ≤ S.nOrig
  nle : S.nOrig ≤ S.clauses.length
  why : ∀ v ci, S.reason v = some ci → ci < S.nOrig + S.limit ∨ ci < S.clauses.length
  live : S.reduceOn = true → S.clauses.length ≤ S.nOrig + Nat.max S.limit 1

theorem Inv.setLimit (h : Inv F m S) (k : Nat) (b : Bool := S.reduceOn) :
    Inv F m { S with limit := k, reduceOn := b } := by
  have hc := h.core
  refine ⟨?_, ⟨h.orig.orig, h.orig.mle, h.orig.unit, h.orig.emp⟩, h.wat, h.watO, h.w1⟩
  exact
    { nodup := hc.nodup, val := hc.val, rng := hc.rng, limS := hc.limS, limB := hc.limB, lev := hc.lev,
      qle := hc.qle, limQ := hc.limQ, whyN := hc.whyN, whyC := hc.whyC, zeroU := hc.zeroU, clsU := hc.clsU,
      clsR := hc.clsR, clsN := hc.clsN, clsT := hc.clsT, logU := hc.logU, logR := hc.logR, empU := hc.empU, heapO := hc.heapO, heapR := hc.heapR }

theorem Inv.setNOrig (h : Inv F m S) (k : Nat) : Inv F m { S with nOrig := k } := by
  have hc := h.core
  refine ⟨?_, ⟨h.orig.orig, h.orig.mle, h.orig.unit, h.orig.emp⟩, h.wat, h.watO, h.w1⟩
  exact
    { nodup := hc.nodup, val := hc.val, rng := hc.rng, limS := hc.limS, limB := hc.limB, lev := hc.lev,
      qle := hc.qle, limQ := hc.limQ, whyN := hc.whyN, whyC := hc.whyC, zeroU := hc.zeroU, clsU := hc.clsU,
      clsR := hc.clsR, clsN := hc.clsN, clsT := hc.clsT, logU := hc.logU, logR := hc.logR, empU := hc.empU, heapO := hc.heapO, heapR := hc.heapR }

theorem maybeReduce_ok (h : Inv F m S) (drop : Nat → Bool) (hb : Bounds1 m S) :
    ∃ S', S.maybeReduce drop = some S' ∧ Inv F m S' ∧ Bounds m S' ∧ S'.n = S.n ∧ S'.empty = S.empty := by
  unfold Solver.maybeReduce
  by_cases hc : S.reduceOn = true ∧ S.limit ≤ S.clauses.length - S.nOrig
  · rw [if_pos hc]
    have hnle := hb.nle
    have hgood : ∀ v ci, S.reason v = some ci → ci < S.clauses.length := by
      intro v ci hr
      rcases hb.why v ci hr with h' | h' <;> omega
    obtain ⟨S', e, hi, hcp⟩ := reduceDb_ok h drop hb.mle hb.nle hgood
    rw [e]
    refine ⟨_, rfl, hi.setLimit _, ⟨?_, ?_, ?_, ?_⟩, hcp.n, hcp.empty⟩
    · show m ≤ S'.nOrig
      rw [hcp.nOrig]; exact hb.mle
    · show S'.nOrig ≤ S'.clauses.length
      rw [hcp.nOrig]; exact hcp.low hb.nle
    · intro v ci hr
      show ci < S'.nOrig + (S'.limit + 500) ∨ _
      rw [hcp.nOrig, hcp.limit]
      have h1 := hb.live hc.1
      have h2 : ci < S.clauses.length := hcp.why hgood v ci hr
      have : Nat.max S.limit 1 ≤ S.limit + 1 := Nat.max_le.2 ⟨by omega, by omega⟩
      left; omega
    · intro _
      show S'.clauses.length < S'.nOrig + Nat.max (S'.limit + 500) 1
      rw [hcp.nOrig, hcp.limit]
      have h1 := hb.live hc.1
      have h2 := hcp.len
      have h3 : Nat.max S.limit 1 ≤ S.limit + 1 := Nat.max_le.2 ⟨by omega, by omega⟩
      have h4 : S.limit + 500 ≤ Nat.max (S.limit + 500) 1 := Nat.le_max_left _ _
      omega
  · rw [if_neg hc]
    refine ⟨S, rfl, h, ⟨hb.mle, hb.nle, hb.why, ?_⟩, rfl, rfl⟩
    intro hon
    have hlt : ¬ S.limit ≤ S.clauses.length - S.nOrig := fun e => hc ⟨hon, e⟩
    have : S.limit ≤ Nat.max S.limit 1 := Nat.le_max_left _ _
    have := hb.nle
    omega

end

end Verif.Sat
