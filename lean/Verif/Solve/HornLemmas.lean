import Verif.Solve.Horn
import Mathlib.Data.List.Count
namespace Verif.Solve.Horn

theorem at_eq {cs : List Clause} {i : Nat} (h : i < cs.length) : at_ cs i = cs[i] := by
  simp [at_, List.getD, h]

theorem at_mem {cs : List Clause} {i : Nat} (h : i < cs.length) : at_ cs i ∈ cs := by
  rw [at_eq h]; exact List.getElem_mem h

theorem getElem?_at {cs : List Clause} {i : Nat} (h : i < cs.length) : cs[i]? = some (at_ cs i) := by
  rw [at_eq h]; exact List.getElem?_eq_getElem h

theorem inBody_count (v : Nat) (cs : List Clause) (k j : Nat) :
    (inBodyFrom v k cs).count j = if k ≤ j ∧ j < k + cs.length then (at_ cs (j - k)).body.count v else 0 := by
  induction cs generalizing k with
  | nil =>
    rw [if_neg (by simp only [List.length_nil]; omega)]; rfl
  | cons c cs ih =>
    simp only [inBodyFrom, List.count_append, ih, List.count_replicate, List.length_cons]
    by_cases e : k = j
    · subst e
      have h1 : ¬ (k + 1 ≤ k ∧ k < k + 1 + cs.length) := by omega
      have h2 : k ≤ k ∧ k < k + (cs.length + 1) := by omega
      rw [if_neg h1, if_pos h2]
      simp [at_]
    · have e' : (k == j) = false := by simpa using e
      rw [e']
      simp only [Bool.false_eq_true, if_false, Nat.zero_add]
      by_cases h : k + 1 ≤ j ∧ j < k + 1 + cs.length
      · rw [if_pos h, if_pos (by omega)]
        have : j - k = (j - (k + 1)) + 1 := by omega
        rw [this]; simp [at_]
      · rw [if_neg h, if_neg (by omega)]

theorem inBody_lt {v j : Nat} {cs : List Clause} (h : j ∈ inBodyFrom v 0 cs) : j < cs.length := by
  have := List.count_pos_iff.2 h
  rw [inBody_count] at this
  split at this
  · omega
  · omega

/-- The number of clauses still waiting for a body variable. -/
def waiting (len : Nat) (r : Nat → Nat) : Nat := (List.range len).countP fun i => decide (0 < r i)

theorem countP_upd (p q : Nat → Bool) (j : Nat) (h : ∀ i, i ≠ j → p i = q i) (len : Nat) (hj : j < len)
    (hp : p j = true) (hq : q j = false) : (List.range len).countP p = (List.range len).countP q + 1 := by
  induction len with
  | zero => omega
  | succ m ih =>
    rw [List.range_succ, List.countP_append, List.countP_append]
    by_cases e : j = m
    · subst e
      have : (List.range j).countP p = (List.range j).countP q := by
        apply List.countP_congr
        intro x hx
        rw [h x (by have := List.mem_range.1 hx; omega)]
      simp [this, hp, hq]
    · rw [ih (by omega)]
      have := h m (fun x => e x.symm)
      simp only [List.countP_cons, List.countP_nil, this]
      omega

theorem decAll_spec (len : Nat) (js : List Nat) : ∀ s : St, (∀ j, js.count j ≤ s.remaining j) →
    (∀ j ∈ js, j < len) →
    (decAll js s).val = s.val ∧ (decAll js s).forcedBy = s.forcedBy ∧
    (∀ j, (decAll js s).remaining j = s.remaining j - js.count j) ∧
    (∀ j, j ∈ (decAll js s).ready ↔ j ∈ s.ready ∨ (j ∈ js ∧ s.remaining j = js.count j)) ∧
    (decAll js s).ready.length + waiting len (decAll js s).remaining =
      s.ready.length + waiting len s.remaining := by
  induction js with
  | nil => intro s _ _; simp [decAll]
  | cons j js ih =>
    intro s hc hl
    have hj : 1 ≤ s.remaining j := by have := hc j; simp at this; omega
    have hcj := hc j
    simp only [List.count_cons_self] at hcj
    have hjl := hl j (by simp)
    have key : ∀ s' : St, s'.val = s.val → s'.forcedBy = s.forcedBy →
        s'.remaining = upd s.remaining j (s.remaining j - 1) →
        (∀ x, x ∈ s'.ready ↔ x ∈ s.ready ∨ (x = j ∧ s.remaining j = 1)) →
        s'.ready.length + waiting len s'.remaining = s.ready.length + waiting len s.remaining →
        (decAll js s').val = s.val ∧ (decAll js s').forcedBy = s.forcedBy ∧
        (∀ x, (decAll js s').remaining x = s.remaining x - (j :: js).count x) ∧
        (∀ x, x ∈ (decAll js s').ready ↔ x ∈ s.ready ∨ (x ∈ j :: js ∧ s.remaining x = (j :: js).count x)) ∧
        (decAll js s').ready.length + waiting len (decAll js s').remaining =
          s.ready.length + waiting len s.remaining := by
      intro s' h1 h2 h3 h4 h5
      have hc' : ∀ x, js.count x ≤ s'.remaining x := by
        intro x
        rw [h3]
        by_cases e : x = j
        · subst e; simp only [upd, if_true]; omega
        · have := hc x
          rw [List.count_cons_of_ne (fun h => e h.symm)] at this
          simp only [upd, e, if_false]; exact this
      obtain ⟨a, b, c, d, e⟩ := ih s' hc' (fun x hx => hl x (by simp [hx]))
      refine ⟨a.trans h1, b.trans h2, ?_, ?_, e.trans h5⟩
      · intro x
        rw [c, h3]
        by_cases e : x = j
        · subst e; simp only [upd, if_true, List.count_cons_self]; omega
        · simp only [upd, e, if_false]; rw [List.count_cons_of_ne (fun h => e h.symm)]
      · intro x
        rw [d, h4, h3]
        by_cases e : x = j
        · subst e
          simp only [upd, if_true, List.count_cons_self, List.mem_cons, true_or, true_and]
          by_cases hx : x ∈ js
          · have := List.count_pos_iff.2 hx
            constructor
            · rintro ((h | h) | h)
              · exact .inl h
              · omega
              · right; omega
            · rintro (h | h)
              · exact .inl (.inl h)
              · exact .inr ⟨hx, by omega⟩
          · have := List.count_eq_zero.2 hx
            constructor
            · rintro ((h | h) | h)
              · exact .inl h
              · exact .inr (by omega)
              · exact absurd h.1 hx
            · rintro (h | h)
              · exact .inl (.inl h)
              · exact .inl (.inr (by omega))
        · simp only [upd, e, if_false, List.mem_cons, false_or, false_and, or_false]
          rw [List.count_cons_of_ne (fun h => e h.symm)]
    simp only [decAll]
    split
    · next h0 =>
      apply key
      · rfl
      · rfl
      · rfl
      · intro x
        simp only [List.mem_append, List.mem_singleton]
        have : s.remaining j = 1 := by omega
        simp [this]
      · simp only [List.length_append, List.length_singleton]
        have := countP_upd (fun i => decide (0 < s.remaining i))
          (fun i => decide (0 < upd s.remaining j (s.remaining j - 1) i)) j
          (fun i hi => by simp [upd, hi]) len hjl (by simp; omega) (by simp [upd]; omega)
        unfold waiting
        omega
    · next h0 =>
      apply key
      · rfl
      · rfl
      · rfl
      · intro x
        simp only [iff_self_or]
        intro h; omega
      · have : waiting len (upd s.remaining j (s.remaining j - 1)) = waiting len s.remaining := by
          apply List.countP_congr
          intro x _
          by_cases e : x = j
          · subst e; simp [upd]; omega
          · simp [upd, e]
        show _ + waiting len (upd s.remaining j (s.remaining j - 1)) = _
        rw [this]

/-- The unset in-range occurrences in a body. -/
def open_ (n : Nat) (val : Nat → Bool) (body : List Nat) : Nat :=
  (body.filter fun b => decide (b < n) && !val b).length

theorem open_set (n : Nat) (val : Nat → Bool) (h : Nat) (hh : h < n) (hv : val h = false) (body : List Nat) :
    open_ n (upd val h true) body + body.count h = open_ n val body := by
  induction body with
  | nil => rfl
  | cons b body ih =>
    unfold open_ at ih ⊢
    by_cases e : b = h
    · subst e
      simp only [List.count_cons_self, List.filter_cons, upd, if_true, hv, hh, decide_true, Bool.not_true,
        Bool.and_false, Bool.not_false, Bool.and_true, Bool.false_eq_true, if_false, List.length_cons]
      unfold upd at ih
      omega
    · rw [List.count_cons_of_ne e]
      have : upd val h true b = val b := by simp [upd, e]
      rw [List.filter_cons, List.filter_cons, this]
      split
      · simp only [List.length_cons]; omega
      · exact ih

theorem open_zero {n : Nat} {val : Nat → Bool} {body : List Nat} :
    open_ n val body = 0 ↔ ∀ b ∈ body, b < n → val b = true := by
  unfold open_
  rw [List.length_eq_zero_iff, List.filter_eq_nil_iff]
  constructor
  · intro h b hb hn
    have := h b hb
    simpa [hn] using this
  · intro h b hb
    simp only [Bool.and_eq_true, decide_eq_true_eq, Bool.not_eq_true', not_and]
    intro hn
    rw [h b hb hn]; simp

/-- The variables set, latest first, each with the clause that set it. -/
inductive Trail (cs : List Clause) : (Nat → Option Nat) → List Nat → Prop
  | nil : Trail cs (fun _ => none) []
  | cons {fb l v i} : Trail cs fb l → v ∉ l → i < cs.length → (at_ cs i).head = some v →
      (∀ b ∈ (at_ cs i).body, b ∈ l) → Trail cs (upd fb v (some i)) (v :: l)

structure Inv (cs : List Clause) (n : Nat) (s : St) : Prop where
  rem : ∀ i < cs.length, s.remaining i = open_ n s.val (at_ cs i).body
  fired : ∀ i < cs.length, s.remaining i = 0 →
    i ∈ s.ready ∨ ∃ h, (at_ cs i).head = some h ∧ (h < n → s.val h = true)
  ready : ∀ i ∈ s.ready, i < cs.length ∧ s.remaining i = 0
  trail : ∃ l, Trail cs s.forcedBy l ∧ ∀ v, s.val v = true ↔ v ∈ l

theorem init_inv (cs : List Clause) (n : Nat) : Inv cs n (init cs n) := by
  have hr : ∀ i, (init cs n).remaining i = open_ n (init cs n).val (at_ cs i).body := by
    intro i; simp [init, open_]
  refine ⟨fun i _ => hr i, ?_, ?_, [], .nil, by simp [init]⟩
  · intro i hi h0
    left
    simp only [init, List.mem_filter, List.mem_range, decide_eq_true_eq]
    exact ⟨hi, h0⟩
  · intro i hi
    simp only [init, List.mem_filter, List.mem_range, decide_eq_true_eq] at hi
    exact hi

theorem init_measure (cs : List Clause) (n : Nat) :
    (init cs n).ready.length + waiting cs.length (init cs n).remaining = cs.length := by
  unfold waiting init
  rw [← List.countP_eq_length_filter]
  have h := List.length_eq_countP_add_countP
    (fun i => decide (((at_ cs i).body.filter fun b => decide (b < n)).length = 0)) (l := List.range cs.length)
  rw [List.length_range] at h
  refine Eq.trans ?_ h.symm
  congr 1
  apply List.countP_congr
  intro x _
  simp only [decide_eq_true_eq]
  omega

theorem fire_inv {cs : List Clause} {n ci h : Nat} {s : St} {rest : List Nat} (hR : InRange cs n)
    (hi : Inv cs n s) (hs : s.ready = ci :: rest) (hh : (at_ cs ci).head = some h) :
    Inv cs n (fire cs n ci h { s with ready := rest }) ∧
    (fire cs n ci h { s with ready := rest }).ready.length +
      waiting cs.length (fire cs n ci h { s with ready := rest }).remaining + 1 =
      s.ready.length + waiting cs.length s.remaining := by
  have hci := hi.ready ci (by simp [hs])
  obtain ⟨l, htr, hvl⟩ := hi.trail
  have hn : h < n := (hR _ (at_mem hci.1)).2 h hh
  have hbody : ∀ b ∈ (at_ cs ci).body, s.val b = true := by
    have := hi.rem ci hci.1
    rw [hci.2] at this
    exact fun b hb => open_zero.1 this.symm b hb ((hR _ (at_mem hci.1)).1 b hb)
  unfold fire
  split
  · next hc =>
    simp only at hc
    let s' : St := { s with ready := rest, val := upd s.val h true, forcedBy := upd s.forcedBy h (some ci) }
    show Inv cs n (decAll (inBodyFrom h 0 cs) s') ∧ (decAll (inBodyFrom h 0 cs) s').ready.length +
      waiting cs.length (decAll (inBodyFrom h 0 cs) s').remaining + 1 = _
    have hcount : ∀ j, j < cs.length → (inBodyFrom h 0 cs).count j = (at_ cs j).body.count h := by
      intro j hj; rw [inBody_count, if_pos (by omega)]; rfl
    have hcle : ∀ j, (inBodyFrom h 0 cs).count j ≤ s'.remaining j := by
      intro j
      by_cases hj : j < cs.length
      · rw [hcount j hj]
        show _ ≤ s.remaining j
        rw [hi.rem j hj, ← open_set n s.val h hc.1 hc.2]
        omega
      · rw [inBody_count, if_neg (by omega)]; omega
    obtain ⟨h1, h2, h3, h4, h5⟩ := decAll_spec cs.length (inBodyFrom h 0 cs) s' hcle (fun j hj => inBody_lt hj)
    have hrem : ∀ i < cs.length, (decAll (inBodyFrom h 0 cs) s').remaining i =
        open_ n (upd s.val h true) (at_ cs i).body := by
      intro i hil
      rw [h3, hcount i hil]
      show s.remaining i - _ = _
      rw [hi.rem i hil, ← open_set n s.val h hc.1 hc.2]
      omega
    refine ⟨⟨?_, ?_, ?_, h :: l, ?_, ?_⟩, ?_⟩
    · intro i hil; rw [hrem i hil, h1]
    · intro i hil h0
      rw [h4]
      by_cases hz : s.remaining i = 0
      · rcases hi.fired i hil hz with hm | ⟨h', e', hv⟩
        · rw [hs] at hm
          rcases List.mem_cons.1 hm with e | hm
          · subst e
            right
            refine ⟨h, hh, fun _ => ?_⟩
            rw [h1]; simp [s', upd]
          · exact .inl (.inl hm)
        · right
          refine ⟨h', e', fun hl => ?_⟩
          rw [h1]
          show upd s.val h true h' = true
          unfold upd
          split
          · rfl
          · exact hv hl
      · left; right
        have hle := hcle i
        rw [h3] at h0
        change s.remaining i - _ = 0 at h0
        change _ ≤ s.remaining i at hle
        refine ⟨List.count_pos_iff.1 (by omega), ?_⟩
        show s.remaining i = _
        omega
    · intro i him
      rw [h4] at him
      rcases him with him | him
      · have := hi.ready i (by rw [hs]; exact List.mem_cons_of_mem _ him)
        refine ⟨this.1, ?_⟩
        rw [h3]
        show s.remaining i - _ = 0
        omega
      · refine ⟨inBody_lt him.1, ?_⟩
        rw [h3]
        have := him.2
        omega
    · rw [h2]
      refine .cons htr ?_ hci.1 hh ?_
      · intro hm
        have := (hvl h).2 hm
        rw [hc.2] at this; cases this
      · exact fun b hb => (hvl b).1 (hbody b hb)
    · intro v
      rw [h1]
      show upd s.val h true v = true ↔ _
      unfold upd
      by_cases e : v = h
      · simp [e]
      · simp only [e, if_false, List.mem_cons, false_or]; exact hvl v
    · rw [h5, hs]
      show rest.length + waiting cs.length s.remaining + 1 = _
      simp only [List.length_cons]; omega
  · next hc =>
    have hv : s.val h = true := by
      cases e : s.val h with
      | true => rfl
      | false => exact absurd ⟨hn, e⟩ hc
    refine ⟨⟨hi.rem, ?_, ?_, l, htr, hvl⟩, ?_⟩
    · intro i hil h0
      rcases hi.fired i hil h0 with hm | hm
      · rw [hs] at hm
        rcases List.mem_cons.1 hm with e | hm
        · subst e; exact .inr ⟨h, hh, fun _ => hv⟩
        · exact .inl hm
      · exact .inr hm
    · exact fun i him => hi.ready i (by rw [hs]; exact List.mem_cons_of_mem _ him)
    · rw [hs]; simp only [List.length_cons]; omega

/-- How the main loop ends: without ready clauses, or at a goal. -/
theorem loop_end {cs : List Clause} {n : Nat} (hR : InRange cs n) : ∀ (f : Nat) (s : St), Inv cs n s →
    s.ready.length + waiting cs.length s.remaining < f →
    (∃ s', Inv cs n s' ∧ s'.ready = [] ∧ loop cs n f s = .sat ((List.range n).map s'.val)) ∨
    (∃ s' ci, Inv cs n s' ∧ ci ∈ s'.ready ∧ (at_ cs ci).head = none ∧
      loop cs n f s = .unsat (derivation cs ci s'.forcedBy)) := by
  intro f
  induction f with
  | zero => intro s _ h; omega
  | succ f ih =>
    intro s hi hm
    simp only [loop]
    cases hr : s.ready with
    | nil => exact .inl ⟨s, hi, hr, rfl⟩
    | cons ci rest =>
      simp only
      cases hh : (at_ cs ci).head with
      | none => exact .inr ⟨s, ci, hi, by simp [hr], hh, rfl⟩
      | some h =>
        obtain ⟨h1, h2⟩ := fire_inv hR hi hr hh
        exact ih _ h1 (by omega)

/-- A variable on the trail is true in every model. -/
theorem trail_forced {cs : List Clause} {fb : Nat → Option Nat} {l : List Nat} (h : Trail cs fb l)
    {σ : Nat → Bool} (hm : Model cs σ) : ∀ v ∈ l, σ v = true := by
  induction h with
  | nil => simp
  | @cons fb l v i _ _ hi hh hb ih =>
    intro w hw
    rcases List.mem_cons.1 hw with e | hw
    · subst e
      obtain ⟨h', e', hv⟩ := hm _ (at_mem hi) (fun b hbm => ih b (hb b hbm))
      rw [hh] at e'
      cases e'
      exact hv
    · exact ih w hw

/-! ## The derivation -/

theorem trail_get {cs : List Clause} {fb : Nat → Option Nat} {l : List Nat} (h : Trail cs fb l) :
    ∀ v ∈ l, ∃ i, fb v = some i ∧ i < cs.length ∧ (at_ cs i).head = some v := by
  induction h with
  | nil => simp
  | @cons fb l v i _ _ hi hh hb ih =>
    intro w hw
    by_cases e : w = v
    · subst e; exact ⟨i, by simp [upd], hi, hh⟩
    · rcases List.mem_cons.1 hw with e' | hw
      · exact absurd e' e
      · obtain ⟨j, hj⟩ := ih w hw
        exact ⟨j, by simp [upd, e, hj.1], hj.2⟩

theorem trail_some {cs : List Clause} {fb : Nat → Option Nat} {l : List Nat} (h : Trail cs fb l) {v i : Nat}
    (e : fb v = some i) : i < cs.length ∧ (at_ cs i).head = some v ∧ ∀ b ∈ (at_ cs i).body, b ∈ l := by
  induction h with
  | nil => cases e
  | @cons fb l w j _ _ hi hh hb ih =>
    by_cases ev : v = w
    · subst ev
      simp only [upd, if_true, Option.some.injEq] at e
      subst e
      exact ⟨hi, hh, fun b hbm => List.mem_cons_of_mem _ (hb b hbm)⟩
    · simp only [upd, ev, if_false] at e
      obtain ⟨a, b, c⟩ := ih e
      exact ⟨a, b, fun x hx => List.mem_cons_of_mem _ (c x hx)⟩

/-- The bodies of the clauses not yet listed. -/
def unlisted (cs : List Clause) (seenC : List Nat) : Nat :=
  ((List.range cs.length).map fun i => if i ∈ seenC then 0 else (at_ cs i).body.length).sum

theorem sum_map_le {f g : Nat → Nat} {l : List Nat} (h : ∀ i ∈ l, f i ≤ g i) : (l.map f).sum ≤ (l.map g).sum := by
  induction l with
  | nil => simp
  | cons a l ih =>
    simp only [List.map_cons, List.sum_cons]
    have := h a (by simp)
    have := ih (fun i hi => h i (by simp [hi]))
    omega

theorem unlisted_cons {cs : List Clause} {seenC : List Nat} {i : Nat} (hi : i < cs.length) (hn : i ∉ seenC) :
    unlisted cs (i :: seenC) + (at_ cs i).body.length = unlisted cs seenC := by
  unfold unlisted
  have gen : ∀ m, i < m → ((List.range m).map fun j => if j ∈ i :: seenC then 0 else (at_ cs j).body.length).sum +
      (at_ cs i).body.length = ((List.range m).map fun j => if j ∈ seenC then 0 else (at_ cs j).body.length).sum := by
    intro m
    induction m with
    | zero => omega
    | succ m ih =>
      intro him
      rw [List.range_succ, List.map_append, List.map_append, List.sum_append, List.sum_append]
      by_cases e : i = m
      · subst e
        have : (List.range i).map (fun j => if j ∈ i :: seenC then 0 else (at_ cs j).body.length) =
            (List.range i).map (fun j => if j ∈ seenC then 0 else (at_ cs j).body.length) := by
          apply List.map_congr_left
          intro j hj
          have : j ≠ i := by have := List.mem_range.1 hj; omega
          simp [this]
        rw [this]
        simp [hn]
      · have := ih (by omega)
        have e' : ¬ m = i := fun h => e h.symm
        simp only [List.map_cons, List.map_nil, List.sum_cons, List.sum_nil, List.mem_cons, e', false_or] at this ⊢
        omega
  exact gen _ hi

theorem unlisted_nil (cs : List Clause) : unlisted cs [] = totalBody cs := by
  unfold unlisted
  induction cs with
  | nil => rfl
  | cons c cs ih =>
    rw [List.length_cons, List.range_succ_eq_map, List.map_cons, List.map_map, List.sum_cons, totalBody, ← ih]
    congr 1

theorem derive_spec {cs : List Clause} {fb : Nat → Option Nat} {l : List Nat} (ht : Trail cs fb l) :
    ∀ (f : Nat) (stack seenV seenC used : List Nat),
    stack.length + unlisted cs seenC < f → (∀ v ∈ stack, v ∈ l) → (∀ i ∈ seenC, i ∈ used) →
    (∀ i ∈ used, ∀ b ∈ (at_ cs i).body, b ∈ seenV ∨ b ∈ stack) →
    (∀ v ∈ seenV, ∃ i, fb v = some i ∧ i ∈ used) → (∀ i ∈ used, i < cs.length) →
    let D := deriveLoop cs fb f stack seenV seenC used
    (∀ i ∈ used, i ∈ D) ∧ (∀ i ∈ D, i < cs.length) ∧
      ∃ S : List Nat, (∀ i ∈ D, ∀ b ∈ (at_ cs i).body, b ∈ S) ∧ ∀ v ∈ S, ∃ i, fb v = some i ∧ i ∈ D := by
  intro f
  induction f with
  | zero => intro _ _ _ _ h; omega
  | succ f ih =>
    intro stack seenV seenC used hm hst hsu hb hv hl
    cases stack with
    | nil =>
      simp only [deriveLoop]
      refine ⟨fun i hi => hi, hl, seenV, ?_, hv⟩
      intro i hi b hbm
      rcases hb i hi b hbm with h | h
      · exact h
      · cases h
    | cons v stack =>
      simp only [deriveLoop, List.length_cons] at hm ⊢
      split
      · next hs =>
        refine ih stack seenV seenC used (by omega) (fun x hx => hst x (by simp [hx])) hsu ?_ hv hl
        intro i hi b hbm
        rcases hb i hi b hbm with h | h
        · exact .inl h
        · rcases List.mem_cons.1 h with e | h
          · subst e; exact .inl hs
          · exact .inr h
      · next hs =>
        obtain ⟨i, hfi, hil, _⟩ := trail_get ht v (hst v (by simp))
        rw [hfi]
        simp only
        have hb' : ∀ {st : List Nat}, (∀ x ∈ stack, x ∈ st) → ∀ j ∈ used, ∀ b ∈ (at_ cs j).body,
            b ∈ v :: seenV ∨ b ∈ st := by
          intro st hss j hj b hbm
          rcases hb j hj b hbm with h | h
          · exact .inl (List.mem_cons_of_mem _ h)
          · rcases List.mem_cons.1 h with e | h
            · subst e; exact .inl (by simp)
            · exact .inr (hss b h)
        split
        · next hc =>
          refine ih stack (v :: seenV) seenC used (by omega) (fun x hx => hst x (by simp [hx])) hsu
            (hb' fun _ h => h) ?_ hl
          intro w hw
          rcases List.mem_cons.1 hw with e | hw
          · subst e; exact ⟨i, hfi, hsu i hc⟩
          · exact hv w hw
        · next hc =>
          have hu := unlisted_cons hil hc
          have := ih ((at_ cs i).body.reverse ++ stack) (v :: seenV) (i :: seenC) (used ++ [i])
            (by simp only [List.length_append, List.length_reverse]; omega) ?_ ?_ ?_ ?_ ?_
          · obtain ⟨a, b, c⟩ := this
            exact ⟨fun j hj => a j (List.mem_append_left _ hj), b, c⟩
          · intro x hx
            rcases List.mem_append.1 hx with hx | hx
            · exact (trail_some ht hfi).2.2 x (List.mem_reverse.1 hx)
            · exact hst x (by simp [hx])
          · intro j hj
            rcases List.mem_cons.1 hj with e | hj
            · subst e; simp
            · exact List.mem_append_left _ (hsu j hj)
          · intro j hj b hbm
            rcases List.mem_append.1 hj with hj | hj
            · exact hb' (fun x hx => List.mem_append_right _ hx) j hj b hbm
            · rw [List.mem_singleton.1 hj] at hbm
              exact .inr (List.mem_append_left _ (List.mem_reverse.2 hbm))
          · intro w hw
            rcases List.mem_cons.1 hw with e | hw
            · subst e; exact ⟨i, hfi, by simp⟩
            · obtain ⟨j, hj, hju⟩ := hv w hw
              exact ⟨j, hj, List.mem_append_left _ hju⟩
          · intro j hj
            rcases List.mem_append.1 hj with hj | hj
            · exact hl j hj
            · rw [List.mem_singleton.1 hj]; exact hil

/-! ## The replay -/

theorem replayOne_mono {n : Nat} {c : Clause} {s : (Nat → Bool) × Bool} :
    (∀ v, s.1 v = true → (replayOne n c s).1 v = true) ∧ (s.2 = true → (replayOne n c s).2 = true) ∧
      ((replayOne n c s).2 = false → (replayOne n c s).1 = s.1) := by
  unfold replayOne
  split
  · exact ⟨fun _ h => h, fun h => h, fun _ => rfl⟩
  · split
    · refine ⟨?_, fun _ => rfl, fun h => by cases h⟩
      intro v hv
      simp only [upd]
      split
      · rfl
      · exact hv
    · exact ⟨fun _ h => h, fun h => h, fun _ => rfl⟩

theorem pass_unchanged {cs : List Clause} {n : Nat} : ∀ (r : List Nat) (s s' : (Nat → Bool) × Bool),
    pass cs n r s = some s' → s'.2 = false → s' = s ∧ ∀ ci ∈ r, ∀ c, cs[ci]? = some c → ∀ h, c.head = some h →
      bodyTrue n s.1 c = true → h < n → s.1 h = true := by
  intro r
  induction r with
  | nil => intro s s' h _; simp only [pass, Option.some.injEq] at h; exact ⟨h.symm, by simp⟩
  | cons ci r ih =>
    intro s s' h hf
    simp only [pass] at h
    cases hc : cs[ci]? with
    | none => rw [hc] at h; cases h
    | some c =>
      rw [hc] at h
      obtain ⟨e, hrest⟩ := ih _ _ h hf
      have h2 : (replayOne n c s).2 = false := by rw [← e]; exact hf
      have h1 := (replayOne_mono (n := n) (c := c) (s := s)).2.2 h2
      have hs2 : s.2 = false := by
        cases hb : s.2 with
        | false => rfl
        | true => have := (replayOne_mono (n := n) (c := c) (s := s)).2.1 hb; rw [this] at h2; cases h2
      have hse : replayOne n c s = s := Prod.ext h1 (h2.trans hs2.symm)
      refine ⟨e.trans hse, ?_⟩
      intro cj hj c' hc' h' hh' hb hn
      rcases List.mem_cons.1 hj with e' | hj
      · subst e'
        rw [hc] at hc'
        cases hc'
        by_cases hv : s.1 h' = true
        · exact hv
        · exfalso
          have : replayOne n c s = (upd s.1 h' true, true) := by
            unfold replayOne
            rw [hh']
            simp only
            rw [if_pos ⟨hb, hn, by simpa using hv⟩]
          rw [hse] at this
          rw [this] at hs2
          cases hs2
      · rw [hse] at hrest
        exact hrest cj hj c' hc' h' hh' hb hn

/-- Variables below `n` that are still false. -/
def falses (n : Nat) (val : Nat → Bool) : Nat := (List.range n).countP fun i => !val i

theorem falses_upd {n : Nat} {val : Nat → Bool} {h : Nat} (hn : h < n) (hv : val h = false) :
    falses n val = falses n (upd val h true) + 1 := by
  apply countP_upd (fun i => !val i) (fun i => !upd val h true i) h _ n hn (by simp [hv]) (by simp [upd])
  intro i hi; simp [upd, hi]

theorem replayOne_falses {n : Nat} {c : Clause} {s : (Nat → Bool) × Bool} :
    falses n (replayOne n c s).1 ≤ falses n s.1 ∧
      ((replayOne n c s).2 = true → s.2 = true ∨ falses n (replayOne n c s).1 < falses n s.1) := by
  unfold replayOne
  split
  · exact ⟨Nat.le_refl _, .inl⟩
  · split
    · next hc =>
      have := falses_upd hc.2.1 hc.2.2
      exact ⟨by simp only; omega, fun _ => .inr (by simp only; omega)⟩
    · exact ⟨Nat.le_refl _, .inl⟩

theorem pass_falses {cs : List Clause} {n : Nat} : ∀ (r : List Nat) (s s' : (Nat → Bool) × Bool),
    pass cs n r s = some s' → falses n s'.1 ≤ falses n s.1 ∧
      (s'.2 = true → s.2 = true ∨ falses n s'.1 < falses n s.1) := by
  intro r
  induction r with
  | nil => intro s s' h; simp only [pass, Option.some.injEq] at h; subst h; exact ⟨Nat.le_refl _, .inl⟩
  | cons ci r ih =>
    intro s s' h
    simp only [pass] at h
    cases hc : cs[ci]? with
    | none => rw [hc] at h; cases h
    | some c =>
      rw [hc] at h
      obtain ⟨h1, h2⟩ := ih _ _ h
      obtain ⟨h3, h4⟩ := replayOne_falses (n := n) (c := c) (s := s)
      refine ⟨by omega, fun ht => ?_⟩
      rcases h2 ht with h | h
      · rcases h4 h with h | h
        · exact .inl h
        · exact .inr (by omega)
      · exact .inr (by omega)

theorem pass_some {cs : List Clause} {n : Nat} : ∀ (r : List Nat) (s : (Nat → Bool) × Bool),
    (∀ ci ∈ r, ci < cs.length) → ∃ s', pass cs n r s = some s' := by
  intro r
  induction r with
  | nil => intro s _; exact ⟨s, rfl⟩
  | cons ci r ih =>
    intro s h
    simp only [pass, getElem?_at (h ci (by simp))]
    exact ih _ fun cj hj => h cj (by simp [hj])

/-- The replay ends in a valuation closed under the listed rules. -/
theorem replay_closed {cs : List Clause} {n : Nat} {r : List Nat} (hr : ∀ ci ∈ r, ci < cs.length) :
    ∀ (f : Nat) (val : Nat → Bool), falses n val < f → ∃ val', replay cs n r f val = some val' ∧
      ∀ ci ∈ r, ∀ h, (at_ cs ci).head = some h → bodyTrue n val' (at_ cs ci) = true → h < n → val' h = true := by
  intro f
  induction f with
  | zero => intro _ h; omega
  | succ f ih =>
    intro val hm
    obtain ⟨⟨val', ch⟩, hp⟩ := pass_some (n := n) r (val, false) hr
    simp only [replay, hp]
    cases ch with
    | true =>
      simp only
      have := (pass_falses r _ _ hp).2 rfl
      simp only [Bool.false_eq_true, false_or] at this
      exact ih val' (by omega)
    | false =>
      simp only
      obtain ⟨e, hc⟩ := pass_unchanged r _ _ hp rfl
      refine ⟨val', rfl, ?_⟩
      have e1 : val' = val := congrArg Prod.fst e
      intro ci hci h hh hb hn
      rw [e1] at hb ⊢
      exact hc ci hci _ (getElem?_at (hr ci hci)) h hh hb hn

/-- Every valuation of the replay is below every model. -/
theorem pass_sound {cs : List Clause} {n : Nat} {σ : Nat → Bool} (hm : Model cs σ) :
    ∀ (r : List Nat) (s s' : (Nat → Bool) × Bool), pass cs n r s = some s' → (∀ v, s.1 v = true → σ v = true) →
      ∀ v, s'.1 v = true → σ v = true := by
  intro r
  induction r with
  | nil => intro s s' h hs; simp only [pass, Option.some.injEq] at h; subst h; exact hs
  | cons ci r ih =>
    intro s s' h hs
    simp only [pass] at h
    cases hc : cs[ci]? with
    | none => rw [hc] at h; cases h
    | some c =>
      rw [hc] at h
      refine ih _ _ h ?_
      unfold replayOne
      split
      · exact hs
      · next hd hh =>
        split
        · next hcd =>
          intro v hv
          simp only [upd] at hv
          split at hv
          · next e =>
            subst e
            have hb : ∀ b ∈ c.body, σ b = true := by
              intro b hb
              have := List.all_eq_true.1 hcd.1 b hb
              simp only [Bool.and_eq_true] at this
              exact hs b this.2
            obtain ⟨h', e', hv'⟩ := hm c (List.mem_of_getElem? hc) hb
            rw [hh] at e'
            cases e'
            exact hv'
          · exact hs v hv
        · exact hs

theorem replay_sound {cs : List Clause} {n : Nat} {r : List Nat} {σ : Nat → Bool} (hm : Model cs σ) :
    ∀ (f : Nat) (val val' : Nat → Bool), replay cs n r f val = some val' → (∀ v, val v = true → σ v = true) →
      ∀ v, val' v = true → σ v = true := by
  intro f
  induction f with
  | zero => intro val val' h hs; simp only [replay, Option.some.injEq] at h; subst h; exact hs
  | succ f ih =>
    intro val val' h hs
    simp only [replay] at h
    cases hp : pass cs n r (val, false) with
    | none => rw [hp] at h; cases h
    | some s =>
      obtain ⟨v1, ch⟩ := s
      rw [hp] at h
      have := pass_sound hm r _ _ hp hs
      cases ch with
      | true => exact ih _ _ h this
      | false => simp only [Option.some.injEq] at h; subst h; exact this

end Verif.Solve.Horn
