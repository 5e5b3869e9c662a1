import Verif.Sat.CdclProp
/-!
# Conflict analysis yields an entailed, asserting clause
-/

namespace Verif.Sat
open Verif.Proof

section
variable {F : List Clause} {S : Solver}

/-- the literals counted by `counter` -/
def hot (S : Solver) (seen : Nat → Bool) (l : Lit) : Bool := seen l.var && S.level l.var == S.lim.length

/-- Structure of the analysis state over the first `i` trail literals. -/
structure AStr (S : Solver) (i : Nat) (st : AState) : Prop where
  lfalse : ∀ q ∈ st.learned, q.negated ∈ S.trail
  llev : ∀ q ∈ st.learned, 0 < S.level q.var ∧ S.level q.var < S.lim.length
  lseen : ∀ q ∈ st.learned, st.seen q.var = true
  lnodup : (st.learned.map Lit.var).Nodup
  src : ∀ v, st.seen v = true → (∃ q ∈ st.learned, q.var = v) ∨
    ∃ l ∈ S.trail.take i, l.var = v ∧ S.level v = S.lim.length
  count : st.counter = (S.trail.take i).countP (hot S st.seen)

/-- The clause the analysis state stands for is false in no world. -/
def ASem (F : List Clause) (S : Solver) (i : Nat) (st : AState) : Prop :=
  ∀ P, World (F ++ S.log) P →
    (∀ l ∈ S.trail.take i, st.seen l.var = true → S.level l.var = S.lim.length → P l) →
    (∀ q ∈ st.learned, P q.negated) → False

theorem countP_upd_other {L : List Lit} {seen : Nat → Bool} {v : Nat} {b : Bool}
    (h : ∀ l ∈ L, l.var = v → S.level v ≠ S.lim.length) :
    L.countP (hot S (upd seen v b)) = L.countP (hot S seen) := by
  apply List.countP_congr
  intro l hl
  unfold hot
  by_cases e : l.var = v
  · have := h l hl e
    subst e
    simp [this]
  · rw [upd_ne _ _ e]

theorem countP_upd_absent {L : List Lit} {seen : Nat → Bool} {v : Nat} {b : Bool}
    (h : ∀ l ∈ L, l.var ≠ v) : L.countP (hot S (upd seen v b)) = L.countP (hot S seen) := by
  apply List.countP_congr
  intro l hl
  unfold hot
  rw [upd_ne _ _ (h l hl)]

theorem countP_upd_new {L : List Lit} {seen : Nat → Bool} {m : Lit} (hn : (L.map Lit.var).Nodup) (hm : m ∈ L)
    (hs : seen m.var = false) (hl : S.level m.var = S.lim.length) :
    L.countP (hot S (upd seen m.var true)) = L.countP (hot S seen) + 1 := by
  induction L with
  | nil => cases hm
  | cons a L ih =>
    rw [List.map_cons, List.nodup_cons] at hn
    rw [List.countP_cons, List.countP_cons]
    rcases List.mem_cons.1 hm with rfl | hm
    · rw [countP_upd_absent (fun l hl e => hn.1 (List.mem_map.2 ⟨l, hl, e⟩))]
      simp [hot, upd_same, hs, hl]
    · rw [ih hn.2 hm]
      have : a.var ≠ m.var := fun e => hn.1 (e ▸ List.mem_map_of_mem hm)
      have : hot S (upd seen m.var true) a = hot S seen a := by
        unfold hot
        rw [upd_ne _ _ this]
      rw [this]
      omega

theorem Core.take_nodup (h : Core F S) (i : Nat) : ((S.trail.take i).map Lit.var).Nodup := by
  have := h.nodup
  rw [← List.take_append_drop i S.trail, List.map_append, List.nodup_append] at this
  exact this.1

/-- Effect of one literal. -/
structure ResOK (S : Solver) (p : Option Lit) (i : Nat) (st st' : AState) (c : List Lit) : Prop where
  str : AStr S i st'
  mono : ∀ v, st.seen v = true → st'.seen v = true
  ext : ∀ q ∈ st.learned, q ∈ st'.learned
  cnt : st.counter ≤ st'.counter
  cov : ∀ q ∈ c, some q ≠ p → S.level q.var = 0 ∨ st'.seen q.var = true

theorem resolveLit_ok (hcore : Core F S) {p : Option Lit} {i : Nat} {st : AState} (h : AStr S i st) {q : Lit}
    (hq : some q ≠ p → q.negated ∈ S.trail.take i) : ResOK S p i st (resolveLit S p st q) [q] := by
  unfold resolveLit
  by_cases hp : some q = p
  · rw [if_pos hp]
    exact ⟨h, fun _ h => h, fun _ h => h, Nat.le_refl _, fun x hx hne => by simp at hx; subst hx; exact absurd hp hne⟩
  rw [if_neg hp]
  have hq := hq hp
  have hqt : q.negated ∈ S.trail := List.mem_of_mem_take hq
  have hqt' : ∀ x ∈ S.trail, x.var = q.var → x = q.negated := fun x hx e => hcore.uniq hx hqt e
  by_cases hs : st.seen q.var = false ∧ 0 < S.level q.var
  · rw [if_pos hs]
    have hnotl : ∀ x ∈ st.learned, x.var ≠ q.var := by
      intro x hx e
      have := h.lseen x hx
      rw [e, hs.1] at this
      cases this
    by_cases hl : S.level q.var = S.lim.length
    · rw [if_pos hl]
      refine ⟨⟨h.lfalse, h.llev, ?_, h.lnodup, ?_, ?_⟩, ?_, fun _ h => h, Nat.le_succ _, ?_⟩
      · intro x hx
        show upd st.seen q.var true x.var = true
        rw [upd_ne _ _ (hnotl x hx)]
        exact h.lseen x hx
      · intro v hv
        have hv' : upd st.seen q.var true v = true := hv
        by_cases e : v = q.var
        · subst e
          exact .inr ⟨q.negated, hq, rfl, hl⟩
        · rw [upd_ne _ _ e] at hv'
          exact h.src v hv'
      · show st.counter + 1 = (S.trail.take i).countP (hot S (upd st.seen q.var true))
        rw [h.count]
        exact (countP_upd_new (m := q.negated) (hcore.take_nodup i) hq hs.1 hl).symm
      · intro v hv
        show upd st.seen q.var true v = true
        by_cases e : v = q.var
        · subst e; exact upd_same _ _ _
        · rw [upd_ne _ _ e]; exact hv
      · intro x hx _
        simp at hx; subst hx
        exact .inr (upd_same _ _ _)
    · rw [if_neg hl]
      have hlt : S.level q.var < S.lim.length := by
        have := hcore.level_le hqt
        have : S.level q.var ≤ S.lim.length := this
        omega
      refine ⟨⟨?_, ?_, ?_, ?_, ?_, ?_⟩, ?_, fun _ h => List.mem_append_left _ h, Nat.le_refl _, ?_⟩
      · intro x hx
        rcases List.mem_append.1 hx with hx | hx
        · exact h.lfalse x hx
        · simp at hx; subst hx; exact hqt
      · intro x hx
        rcases List.mem_append.1 hx with hx | hx
        · exact h.llev x hx
        · simp at hx; subst hx; exact ⟨hs.2, hlt⟩
      · intro x hx
        show upd st.seen q.var true x.var = true
        rcases List.mem_append.1 hx with hx | hx
        · rw [upd_ne _ _ (hnotl x hx)]
          exact h.lseen x hx
        · simp at hx; subst hx; exact upd_same _ _ _
      · show ((st.learned ++ [q]).map Lit.var).Nodup
        rw [List.map_append, List.nodup_append]
        refine ⟨h.lnodup, by simp, ?_⟩
        intro a ha b hb e
        obtain ⟨x, hx, rfl⟩ := List.mem_map.1 ha
        simp at hb
        subst hb
        exact hnotl x hx e
      · intro v hv
        have hv' : upd st.seen q.var true v = true := hv
        by_cases e : v = q.var
        · subst e
          exact .inl ⟨q, List.mem_append_right _ (by simp), rfl⟩
        · rw [upd_ne _ _ e] at hv'
          rcases h.src v hv' with ⟨x, hx, ex⟩ | h'
          · exact .inl ⟨x, List.mem_append_left _ hx, ex⟩
          · exact .inr h'
      · show st.counter = (S.trail.take i).countP (hot S (upd st.seen q.var true))
        rw [h.count]
        exact (countP_upd_other fun _ _ _ => hl).symm
      · intro v hv
        show upd st.seen q.var true v = true
        by_cases e : v = q.var
        · subst e; exact upd_same _ _ _
        · rw [upd_ne _ _ e]; exact hv
      · intro x hx _
        simp at hx; subst hx
        exact .inr (upd_same _ _ _)
  · rw [if_neg hs]
    refine ⟨h, fun _ h => h, fun _ h => h, Nat.le_refl _, ?_⟩
    intro x hx _
    simp at hx; subst hx
    by_cases h0 : S.level x.var = 0
    · exact .inl h0
    · refine .inr ?_
      cases hse : st.seen x.var with
      | true => rfl
      | false => exact absurd ⟨hse, by omega⟩ hs

theorem resolve_ok (hcore : Core F S) {p : Option Lit} {i : Nat} (c : List Lit) {st : AState} (h : AStr S i st)
    (hq : ∀ q ∈ c, some q ≠ p → q.negated ∈ S.trail.take i) :
    ResOK S p i st (c.foldl (resolveLit S p) st) c := by
  induction c generalizing st with
  | nil => exact ⟨h, fun _ h => h, fun _ h => h, Nat.le_refl _, fun x hx => by cases hx⟩
  | cons q c ih =>
    have h1 := resolveLit_ok hcore h (hq q (by simp))
    have h2 := ih h1.str (fun x hx => hq x (List.mem_cons_of_mem _ hx))
    refine ⟨h2.str, fun v hv => h2.mono v (h1.mono v hv), fun x hx => h2.ext x (h1.ext x hx),
      Nat.le_trans h1.cnt h2.cnt, ?_⟩
    intro x hx hne
    rcases List.mem_cons.1 hx with rfl | hx
    · rcases h1.cov x (by simp) hne with h0 | h0
      · exact .inl h0
      · exact .inr (h2.mono _ h0)
    · exact h2.cov x hx hne

/-- In a world that makes the analysis clause false, every covered literal is false. -/
theorem covered_false (hcore : Core F S) {i : Nat} {st : AState} (h : AStr S i st) {P : Lit → Prop}
    (hP : World (F ++ S.log) P)
    (hh : ∀ l ∈ S.trail.take i, st.seen l.var = true → S.level l.var = S.lim.length → P l)
    (hl : ∀ q ∈ st.learned, P q.negated) {q : Lit} (hq : q.negated ∈ S.trail)
    (hc : S.level q.var = 0 ∨ st.seen q.var = true) : P q.negated := by
  rcases hc with h0 | hs
  · obtain ⟨j, hj⟩ := List.mem_iff_getElem?.1 hq
    have : lv S.lim j = 0 := by
      rw [← hcore.lev j _ hj]; exact h0
    exact hcore.zeroU j _ hj this P hP
  · rcases h.src q.var hs with ⟨x, hx, e⟩ | ⟨l, hl', e, hlev⟩
    · have : x.negated = q.negated := hcore.uniq (h.lfalse x hx) hq e
      have : x = q := by rw [← Lit.negated_negated x, this, Lit.negated_negated]
      rw [← this]
      exact hl x hx
    · have : l = q.negated := hcore.uniq (List.mem_of_mem_take hl') hq e
      subst this
      exact hh _ hl' hs hlev

/-- What the walk returns. -/
structure ScanRes (F : List Clause) (S : Solver) (p : Lit) (learned : List Lit) : Prop where
  pt : p ∈ S.trail
  plev : S.level p.var = S.lim.length
  lfalse : ∀ q ∈ learned, q.negated ∈ S.trail
  llev : ∀ q ∈ learned, 0 < S.level q.var ∧ S.level q.var < S.lim.length
  lnodup : (learned.map Lit.var).Nodup
  sem : ∀ P, World (F ++ S.log) P → P p → (∀ q ∈ learned, P q.negated) → False

theorem take_succ_reverse {i : Nat} {l : Lit} (h : S.trail[i]? = some l) :
    (S.trail.take (i + 1)).reverse = l :: (S.trail.take i).reverse := by
  rw [List.take_add_one, h]
  simp

theorem mem_take_succ {i : Nat} {l : Lit} (h : S.trail[i]? = some l) {x : Lit} :
    x ∈ S.trail.take (i + 1) ↔ x ∈ S.trail.take i ∨ x = l := by
  rw [List.take_add_one, h]
  simp

theorem countP_take_succ {i : Nat} {l : Lit} (h : S.trail[i]? = some l) (f : Lit → Bool) :
    (S.trail.take (i + 1)).countP f = (S.trail.take i).countP f + (if f l then 1 else 0) := by
  rw [List.take_add_one, h, List.countP_append]
  simp [List.countP_cons]

theorem scan_ok (hcore : Core F S) (hdl : 0 < S.lim.length) {i : Nat} {st : AState} (hi : i ≤ S.trail.length)
    (h : AStr S i st) (hsem : ASem F S i st) (hc : 0 < st.counter) :
    ∃ p learned, scanTrail S (S.trail.take i).reverse st = some (p, learned) ∧ ScanRes F S p learned := by
  induction i generalizing st with
  | zero =>
    have := h.count
    simp at this
    omega
  | succ i ih =>
    obtain ⟨l, hl⟩ : ∃ l, S.trail[i]? = some l := ⟨S.trail[i], by simp⟩
    have habs : ∀ x ∈ S.trail.take i, x.var ≠ l.var := by
      intro x hx e
      obtain ⟨j, hj, hx⟩ := mem_take_iff.1 hx
      have := hcore.idx hx hl e
      omega
    rw [take_succ_reverse hl, scanTrail]
    by_cases hs : st.seen l.var = true
    · rw [if_pos hs]
      -- the literal met is of the current level
      have hlev : S.level l.var = S.lim.length := by
        rw [h.count, List.countP_pos_iff] at hc
        obtain ⟨x, hx, hhot⟩ := hc
        obtain ⟨j, hj, hxj⟩ := mem_take_iff.1 hx
        simp only [hot, Bool.and_eq_true, beq_iff_eq] at hhot
        have h1 := hcore.lev j x hxj
        have h2 := hcore.lev i l hl
        have h3 := lv_mono S.lim (i := j) (j := i) (by omega)
        have h4 := lv_le S.lim i
        have := hhot.2
        omega
      have hhotl : hot S st.seen l = true := by simp [hot, hs, hlev]
      have hcount := h.count
      rw [countP_take_succ hl, if_pos hhotl] at hcount
      cases hcnt : st.counter with
      | zero => omega
      | succ k =>
        cases k with
        | zero =>
          refine ⟨l, st.learned, rfl, List.mem_of_getElem? hl, hlev, h.lfalse, h.llev, h.lnodup, ?_⟩
          intro P hP hlh hq
          refine hsem P hP ?_ hq
          intro x hx hxs hxl
          rcases (mem_take_succ hl).1 hx with hx | rfl
          · exfalso
            have : 0 < (S.trail.take i).countP (hot S st.seen) :=
              List.countP_pos_iff.2 ⟨x, hx, by simp [hot, hxs, hxl]⟩
            omega
          · exact hlh
        | succ k =>
          simp only
          have hpos : 0 < lv S.lim i := by rw [← hcore.lev i l hl]; omega
          cases hr : S.reason l.var with
          | none =>
            exfalso
            have hmem := hcore.whyN i l hl hpos hr
            have : 0 < (S.trail.take i).countP (hot S st.seen) := by omega
            obtain ⟨x, hx, hhot⟩ := List.countP_pos_iff.1 this
            obtain ⟨j, hj, hxj⟩ := mem_take_iff.1 hx
            simp only [hot, Bool.and_eq_true, beq_iff_eq] at hhot
            have h1 := hcore.lev j x hxj
            have h2 : lv S.lim j = S.lim.length := by rw [← h1]; exact hhot.2
            have := lv_full_iff.1 h2 i hmem
            omega
          | some ci =>
            obtain ⟨c, hcl, hlc, hoth⟩ := hcore.whyC i l ci hl hpos hr
            simp only [hcl]
            have hne : ∀ q ∈ st.learned, q.var ≠ l.var := by
              intro q hq e
              have := (h.llev q hq).2
              rw [e] at this
              omega
            have h0 : AStr S i ⟨upd st.seen l.var false, k + 1, st.learned⟩ := by
              refine ⟨h.lfalse, h.llev, ?_, h.lnodup, ?_, ?_⟩
              · intro q hq
                show upd st.seen l.var false q.var = true
                rw [upd_ne _ _ (hne q hq)]
                exact h.lseen q hq
              · intro v hv
                have hv' : upd st.seen l.var false v = true := hv
                by_cases e : v = l.var
                · subst e; rw [upd_same] at hv'; cases hv'
                · rw [upd_ne _ _ e] at hv'
                  rcases h.src v hv' with h' | ⟨x, hx, ex, hxl⟩
                  · exact .inl h'
                  · rcases (mem_take_succ hl).1 hx with hx | rfl
                    · exact .inr ⟨x, hx, ex, hxl⟩
                    · exact absurd ex.symm e
              · show k + 1 = (S.trail.take i).countP (hot S (upd st.seen l.var false))
                rw [countP_upd_absent habs]
                omega
            have hres := resolve_ok hcore (p := some l) c h0 (by
              intro q hq hne
              exact hoth q hq (fun e => hne (by rw [e])))
            refine ih (by omega) hres.str ?_ (by
              have : k + 1 ≤ _ := hres.cnt
              omega)
            intro P hP hh hlf
            have hlh : P l :=
              (hcore.clsU c (List.mem_of_getElem? hcl)).unit P hP l hlc fun q hq e =>
                covered_false hcore hres.str hP hh hlf (List.mem_of_mem_take (hoth q hq e))
                  (hres.cov q hq (fun e' => e (Option.some.inj e')))
            refine hsem P hP ?_ (fun q hq => hlf q (hres.ext q hq))
            intro x hx hxs hxl
            rcases (mem_take_succ hl).1 hx with hx | rfl
            · refine hh x hx (hres.mono _ ?_) hxl
              show upd st.seen l.var false x.var = true
              rw [upd_ne _ _ (habs x hx)]
              exact hxs
            · exact hlh
    · rw [if_neg hs]
      refine ih (by omega) ⟨h.lfalse, h.llev, h.lseen, h.lnodup, ?_, ?_⟩ ?_ hc
      · intro v hv
        rcases h.src v hv with h' | ⟨x, hx, ex, hxl⟩
        · exact .inl h'
        · rcases (mem_take_succ hl).1 hx with hx | rfl
          · exact .inr ⟨x, hx, ex, hxl⟩
          · rw [ex] at hs; exact absurd hv hs
      · have := h.count
        rw [countP_take_succ hl] at this
        rw [this]
        have : hot S st.seen l = false := by simp [hot, hs]
        simp [this]
      · intro P hP hh
        refine hsem P hP ?_
        intro x hx hxs hxl
        rcases (mem_take_succ hl).1 hx with hx | rfl
        · exact hh x hx hxs hxl
        · exact absurd hxs hs

theorem conflict_scan (hcore : Core F S) (hdl : 0 < S.lim.length) {c : Clause} (hcm : c ∈ S.clauses)
    (hf : ∀ q ∈ c, q.negated ∈ S.trail) (hcur : ∃ q ∈ c, S.level q.var = S.lim.length) :
    ∃ p learned, scanTrail S S.trail.reverse (c.foldl (resolveLit S none) ⟨fun _ => false, 0, []⟩) =
      some (p, learned) ∧ ScanRes F S p learned := by
  have h0 : AStr S S.trail.length ⟨fun _ => false, 0, []⟩ := by
    refine ⟨(fun q hq => by cases hq), (fun q hq => by cases hq), (fun q hq => by cases hq), List.nodup_nil,
      (fun v hv => by cases hv), ?_⟩
    symm
    rw [List.countP_eq_zero]
    intro x _
    simp [hot]
  have hres := resolve_ok hcore (p := none) c h0 (by
    intro q hq _
    rw [List.take_length]; exact hf q hq)
  have := scan_ok hcore hdl (Nat.le_refl _) hres.str (by
    intro P hP hh hlf
    exact (hcore.clsU c hcm).conf P hP fun q hq =>
      covered_false hcore hres.str hP hh hlf (hf q hq) (hres.cov q hq (by simp))) (by
    obtain ⟨q, hq, hl⟩ := hcur
    rcases hres.cov q hq (by simp) with h' | h'
    · omega
    · rw [hres.str.count, List.countP_pos_iff]
      rcases hres.str.src q.var h' with ⟨x, hx, e⟩ | ⟨x, hx, e, hxl⟩
      · have := (hres.str.llev x hx).2
        rw [e] at this; omega
      · exact ⟨x, hx, by simp [hot, e, h', hl]⟩)
  rwa [List.take_length] at this

/-! ## Minimization -/

/-- Entries marked redundant have a reason made of level-0, seen and redundant literals. -/
def CacheOK (S : Solver) (seen : Nat → Bool) (cache : Nat → Nat) : Prop :=
  ∀ v, cache v = 1 → ∃ ci c, S.reason v = some ci ∧ S.clauses[ci]? = some c ∧
    ∀ q ∈ c, q.var = v ∨ S.level q.var = 0 ∨ seen q.var = true ∨ cache q.var = 1

/-- The changes of one call. -/
structure RedOK (S : Solver) (seen : Nat → Bool) (i : Nat) (cache cache' : Nat → Nat) : Prop where
  ok : CacheOK S seen cache'
  mono : ∀ v, cache v = 1 → cache' v = 1
  old : ∀ v, cache' v ≠ cache v → ∃ l ∈ S.trail.take (i + 1), l.var = v

theorem RedOK.refl {seen : Nat → Bool} {cache : Nat → Nat} (h : CacheOK S seen cache) (i : Nat) :
    RedOK S seen i cache cache := ⟨h, fun _ h => h, fun _ h => absurd rfl h⟩

theorem allS_ok {seen : Nat → Bool} {i : Nat} {f : Lit → (Nat → Nat) → Bool × (Nat → Nat)} {good : Lit → (Nat → Nat) → Prop}
    (hgood : ∀ q a b, (∀ v, a v = 1 → b v = 1) → good q a → good q b) (c : List Lit)
    (hf : ∀ q ∈ c, ∀ s, CacheOK S seen s → RedOK S seen i s (f q s).2 ∧ ((f q s).1 = true → good q (f q s).2))
    {s : Nat → Nat} (hs : CacheOK S seen s) :
    RedOK S seen i s (allS f c s).2 ∧ ((allS f c s).1 = true → ∀ q ∈ c, good q (allS f c s).2) := by
  induction c generalizing s with
  | nil => exact ⟨RedOK.refl hs i, fun _ q hq => by cases hq⟩
  | cons q c ih =>
    obtain ⟨h1, h2⟩ := hf q (by simp) s hs
    rw [allS]
    revert h1 h2
    rcases f q s with ⟨b, s'⟩
    intro h1 h2
    cases b with
    | false => exact ⟨h1, fun e => by cases e⟩
    | true =>
      simp only
      obtain ⟨g1, g2⟩ := ih (fun x hx => hf x (List.mem_cons_of_mem _ hx)) h1.ok
      refine ⟨⟨g1.ok, fun v hv => g1.mono v (h1.mono v hv), ?_⟩, ?_⟩
      · intro v hv
        by_cases e : s' v = s v
        · exact g1.old v (by show _ ≠ s' v; rw [e]; exact hv)
        · exact h1.old v e
      · intro hall x hx
        rcases List.mem_cons.1 hx with rfl | hx
        · exact hgood x s' _ g1.mono (h2 rfl)
        · exact g2 hall x hx

theorem litRedundant_ok (hcore : Core F S) (seen : Nat → Bool) (d : Nat) {i : Nat} {lit : Lit} {cache : Nat → Nat}
    (hi : S.trail[i]? = some lit.negated) (hpos : 0 < lv S.lim i) (hc : CacheOK S seen cache) :
    RedOK S seen i cache (litRedundant S seen d lit cache).2 ∧
      ((litRedundant S seen d lit cache).1 = true → (litRedundant S seen d lit cache).2 lit.var = 1) := by
  have hself : lit.negated ∈ S.trail.take (i + 1) := mem_take_iff.2 ⟨i, Nat.lt_succ_self i, hi⟩
  induction d generalizing i lit cache with
  | zero => exact ⟨RedOK.refl hc i, by simp [litRedundant]⟩
  | succ d ih =>
    rw [litRedundant]
    by_cases h1 : cache lit.var = 1
    · rw [if_pos h1]; exact ⟨RedOK.refl hc i, fun _ => h1⟩
    rw [if_neg h1]
    by_cases h2 : cache lit.var = 2
    · rw [if_pos h2]; exact ⟨RedOK.refl hc i, fun e => by cases e⟩
    rw [if_neg h2]
    cases hr : (S.reason lit.var).bind (S.clauses[·]?) with
    | none =>
      refine ⟨⟨?_, ?_, ?_⟩, fun e => by cases e⟩
      · intro v hv
        have hv' : upd cache lit.var 2 v = 1 := hv
        by_cases e : v = lit.var
        · subst e; rw [upd_same] at hv'; cases hv'
        · rw [upd_ne _ _ e] at hv'
          obtain ⟨ci, c, g1, g2, g3⟩ := hc v hv'
          refine ⟨ci, c, g1, g2, fun q hq => ?_⟩
          rcases g3 q hq with g | g | g | g
          · exact .inl g
          · exact .inr (.inl g)
          · exact .inr (.inr (.inl g))
          · refine .inr (.inr (.inr ?_))
            show upd cache lit.var 2 q.var = 1
            by_cases e' : q.var = lit.var
            · rw [e'] at g; exact absurd g h1
            · rw [upd_ne _ _ e']; exact g
      · intro v hv
        show upd cache lit.var 2 v = 1
        by_cases e : v = lit.var
        · subst e; exact absurd hv h1
        · rw [upd_ne _ _ e]; exact hv
      · intro v hv
        have hv' : upd cache lit.var 2 v ≠ cache v := hv
        by_cases e : v = lit.var
        · exact ⟨_, hself, e.symm⟩
        · rw [upd_ne _ _ e] at hv'; exact absurd rfl hv'
    | some c =>
      obtain ⟨ci, hci, hcl⟩ := Option.bind_eq_some_iff.1 hr
      obtain ⟨c', hc', hlc, hoth⟩ := hcore.whyC i _ ci hi hpos hci
      rw [hcl] at hc'
      cases hc'
      simp only
      -- the antecedents come earlier on the trail
      have hant : ∀ q ∈ c, q.var ≠ lit.var → ∃ j < i, S.trail[j]? = some q.negated := by
        intro q hq hne
        exact mem_take_iff.1 (hoth q hq (fun e => hne (by rw [e]; rfl)))
      cases hi0 : i with
      | zero =>
        -- all literals are on the variable itself
        have hall : ∀ q ∈ c, q.var = lit.var := by
          intro q hq
          by_cases e : q.var = lit.var
          · exact e
          · obtain ⟨j, hj, _⟩ := hant q hq e; omega
        have hcomp : ∀ L : List Lit, (∀ q ∈ L, q.var = lit.var) → allS (fun q s =>
            if q.var = lit.var ∨ S.level q.var = 0 ∨ seen q.var = true then (true, s)
            else litRedundant S seen d q s) L cache = (true, cache) := by
          intro L hL
          induction L with
          | nil => rfl
          | cons q L ihL =>
            rw [allS, if_pos (Or.inl (hL q (by simp)))]
            exact ihL (fun x hx => hL x (List.mem_cons_of_mem _ hx))
        rw [hcomp c hall]
        simp only [if_true]
        refine ⟨⟨?_, ?_, ?_⟩, fun _ => upd_same _ _ _⟩
        · intro v hv
          have hv' : upd cache lit.var 1 v = 1 := hv
          by_cases e : v = lit.var
          · subst e
            exact ⟨ci, c, hci, hcl, fun q hq => .inl (hall q hq)⟩
          · rw [upd_ne _ _ e] at hv'
            obtain ⟨ci', c', g1, g2, g3⟩ := hc v hv'
            refine ⟨ci', c', g1, g2, fun q hq => ?_⟩
            rcases g3 q hq with g | g | g | g
            · exact .inl g
            · exact .inr (.inl g)
            · exact .inr (.inr (.inl g))
            · refine .inr (.inr (.inr ?_))
              show upd cache lit.var 1 q.var = 1
              by_cases e' : q.var = lit.var
              · rw [e']; exact upd_same _ _ _
              · rw [upd_ne _ _ e']; exact g
        · intro v hv
          show upd cache lit.var 1 v = 1
          by_cases e : v = lit.var
          · subst e; exact upd_same _ _ _
          · rw [upd_ne _ _ e]; exact hv
        · intro v hv
          have hv' : upd cache lit.var 1 v ≠ cache v := hv
          by_cases e : v = lit.var
          · subst hi0; exact ⟨_, hself, e.symm⟩
          · rw [upd_ne _ _ e] at hv'; exact absurd rfl hv'
      | succ i' =>
        subst hi0
        have hall := allS_ok (S := S) (seen := seen) (i := i')
          (f := fun q s => if q.var = lit.var ∨ S.level q.var = 0 ∨ seen q.var = true then (true, s)
            else litRedundant S seen d q s)
          (good := fun q s => q.var = lit.var ∨ S.level q.var = 0 ∨ seen q.var = true ∨ s q.var = 1)
          (by
            rintro q a b hab (g | g | g | g)
            · exact .inl g
            · exact .inr (.inl g)
            · exact .inr (.inr (.inl g))
            · exact .inr (.inr (.inr (hab _ g)))) c (by
            intro q hq s hs
            by_cases hcond : q.var = lit.var ∨ S.level q.var = 0 ∨ seen q.var = true
            · simp only [if_pos hcond]
              refine ⟨RedOK.refl hs i', fun _ => ?_⟩
              rcases hcond with g | g | g
              · exact .inl g
              · exact .inr (.inl g)
              · exact .inr (.inr (.inl g))
            · simp only [if_neg hcond]
              have hne : q.var ≠ lit.var := fun e => hcond (.inl e)
              obtain ⟨j, hj, hjq⟩ := hant q hq hne
              have hjpos : 0 < lv S.lim j := by
                rw [← hcore.lev j _ hjq]
                show 0 < S.level q.var
                have : S.level q.var ≠ 0 := fun e => hcond (.inr (.inl e))
                omega
              obtain ⟨g1, g2⟩ := ih hjq hjpos hs (mem_take_iff.2 ⟨j, Nat.lt_succ_self j, hjq⟩)
              refine ⟨⟨g1.ok, g1.mono, ?_⟩, fun e => .inr (.inr (.inr (g2 e)))⟩
              intro v hv
              obtain ⟨l, hl, e⟩ := g1.old v hv
              obtain ⟨j', hj', hl⟩ := mem_take_iff.1 hl
              exact ⟨l, mem_take_iff.2 ⟨j', by omega, hl⟩, e⟩) hc
        revert hall
        generalize allS (fun q s => if q.var = lit.var ∨ S.level q.var = 0 ∨ seen q.var = true then (true, s)
            else litRedundant S seen d q s) c cache = r
        rintro ⟨g1, g2⟩
        -- the entry of the literal itself is untouched by the recursion
        have hkeep : r.2 lit.var = cache lit.var := by
          by_cases e : r.2 lit.var = cache lit.var
          · exact e
          · obtain ⟨l, hl, e'⟩ := g1.old _ e
            obtain ⟨j, hj, hl⟩ := mem_take_iff.1 hl
            have := hcore.idx hl hi e'
            omega
        have hr1 : r.2 lit.var ≠ 1 := by rw [hkeep]; exact h1
        refine ⟨⟨?_, ?_, ?_⟩, ?_⟩
        · intro v hv
          have hv' : upd r.2 lit.var (if r.1 then 1 else 2) v = 1 := hv
          have hlift : ∀ x, r.2 x = 1 → upd r.2 lit.var (if r.1 then 1 else 2) x = 1 := by
            intro x hx
            by_cases e : x = lit.var
            · subst e; exact absurd hx hr1
            · rw [upd_ne _ _ e]; exact hx
          by_cases e : v = lit.var
          · subst e
            rw [upd_same] at hv'
            have hrt : r.1 = true := by
              cases hb : r.1 with
              | true => rfl
              | false => rw [hb] at hv'; simp at hv'
            refine ⟨ci, c, hci, hcl, fun q hq => ?_⟩
            rcases g2 hrt q hq with g | g | g | g
            · exact .inl g
            · exact .inr (.inl g)
            · exact .inr (.inr (.inl g))
            · exact .inr (.inr (.inr (hlift _ g)))
          · rw [upd_ne _ _ e] at hv'
            obtain ⟨ci', c', k1, k2, k3⟩ := g1.ok v hv'
            refine ⟨ci', c', k1, k2, fun q hq => ?_⟩
            rcases k3 q hq with g | g | g | g
            · exact .inl g
            · exact .inr (.inl g)
            · exact .inr (.inr (.inl g))
            · exact .inr (.inr (.inr (hlift _ g)))
        · intro v hv
          show upd r.2 lit.var (if r.1 then 1 else 2) v = 1
          by_cases e : v = lit.var
          · subst e; exact absurd hv h1
          · rw [upd_ne _ _ e]; exact g1.mono v hv
        · intro v hv
          have hv' : upd r.2 lit.var (if r.1 then 1 else 2) v ≠ cache v := hv
          by_cases e : v = lit.var
          · exact ⟨_, hself, e.symm⟩
          · rw [upd_ne _ _ e] at hv'
            obtain ⟨l, hl, e'⟩ := g1.old v hv'
            obtain ⟨j, hj, hl⟩ := mem_take_iff.1 hl
            exact ⟨l, mem_take_iff.2 ⟨j, by omega, hl⟩, e'⟩
        · intro hrt
          show upd r.2 lit.var (if r.1 then 1 else 2) lit.var = 1
          rw [upd_same, if_pos hrt]

theorem minimize_cache (hcore : Core F S) (seen : Nat → Bool) (rest : List Lit)
    (hr : ∀ q ∈ rest, q.negated ∈ S.trail ∧ 0 < S.level q.var) {cache : Nat → Nat} (hc : CacheOK S seen cache) :
    CacheOK S seen (rest.foldl (fun cache l => (litRedundant S seen 48 l cache).2) cache) := by
  induction rest generalizing cache with
  | nil => exact hc
  | cons q rest ih =>
    refine ih (fun x hx => hr x (List.mem_cons_of_mem _ hx)) ?_
    obtain ⟨h1, h2⟩ := hr q (by simp)
    obtain ⟨i, hi⟩ := List.mem_iff_getElem?.1 h1
    exact (litRedundant_ok hcore seen 48 hi (by rw [← hcore.lev i _ hi]; exact h2) hc).1.ok

/-- A minimized clause is still false in no world. -/
theorem minimize_ok (hcore : Core F S) {p : Lit} {learned : List Lit} (h : ScanRes F S p learned) :
    UPEnt (F ++ S.log) (p.negated :: minimize S p.negated learned) := by
  intro P hP hall
  -- the cache
  have hcache := minimize_cache hcore (fun v => decide (v ∈ (p.negated :: learned).map Lit.var)) learned
    (fun q hq => ⟨h.lfalse q hq, (h.llev q hq).1⟩) (cache := fun _ => 0) (fun v hv => by cases hv)
  have hmin : ∀ q ∈ learned, (learned.foldl (fun cache l => (litRedundant S
      (fun v => decide (v ∈ (p.negated :: learned).map Lit.var)) 48 l cache).2) (fun _ => 0)) q.var ≠ 1 →
      q ∈ minimize S p.negated learned := by
    intro q hq hne
    unfold minimize
    exact List.mem_filter.2 ⟨hq, by simpa using hne⟩
  revert hcache hmin
  generalize learned.foldl (fun cache l => (litRedundant S
      (fun v => decide (v ∈ (p.negated :: learned).map Lit.var)) 48 l cache).2) (fun _ => 0) = cache
  intro hcache hmin
  have key : ∀ (i : Nat) (l : Lit), S.trail[i]? = some l → (S.level l.var = 0 ∨ l.var ∈ (p.negated :: learned).map Lit.var ∨
      cache l.var = 1) → P l := by
    intro i
    induction i using Nat.strongRecOn with
    | _ i ih =>
      intro l hl hcase
      have hlt : l ∈ S.trail := List.mem_of_getElem? hl
      by_cases h0 : lv S.lim i = 0
      · exact hcore.zeroU i l hl h0 P hP
      have hpos : 0 < lv S.lim i := by omega
      have hl0 : S.level l.var ≠ 0 := by rw [hcore.lev i l hl]; omega
      by_cases hc1 : cache l.var = 1
      · obtain ⟨ci, c, hr, hcl, hq⟩ := hcache l.var hc1
        obtain ⟨c', hcl', hlc, hoth⟩ := hcore.whyC i l ci hl hpos hr
        rw [hcl] at hcl'
        cases hcl'
        refine (hcore.clsU c (List.mem_of_getElem? hcl)).unit P hP l hlc fun q hqc e => ?_
        obtain ⟨j, hj, hqj⟩ := mem_take_iff.1 (hoth q hqc e)
        have hcase' : S.level q.negated.var = 0 ∨ q.negated.var ∈ (p.negated :: learned).map Lit.var ∨
            cache q.negated.var = 1 := by
          rcases hq q hqc with g | g | g | g
          · have := hcore.idx hqj hl g
            omega
          · exact .inl g
          · exact .inr (.inl (by simpa using g))
          · exact .inr (.inr g)
        exact ih j hj q.negated hqj hcase'
      · rcases hcase with g | g | g
        · exact absurd g hl0
        · rw [List.map_cons, List.mem_cons] at g
          rcases g with g | g
          · have : l = p := hcore.uniq hlt h.pt g
            subst this
            have := hall l.negated (by simp)
            rwa [Lit.negated_negated] at this
          · obtain ⟨q, hq, e⟩ := List.mem_map.1 g
            have hql : q.negated = l := hcore.uniq (h.lfalse q hq) hlt e
            rw [← hql]
            refine hall q (List.mem_cons_of_mem _ (hmin q hq ?_))
            rw [e]; exact hc1
        · exact absurd g hc1
  refine h.sem P hP ?_ ?_
  · obtain ⟨i, hi⟩ := List.mem_iff_getElem?.1 h.pt
    exact key i p hi (.inr (.inl (by simp)))
  · intro q hq
    obtain ⟨i, hi⟩ := List.mem_iff_getElem?.1 (h.lfalse q hq)
    exact key i _ hi (.inr (.inl (List.mem_map.2 ⟨q, List.mem_cons_of_mem _ hq, rfl⟩)))

/-! ## Slots and the level to return to -/

theorem bestLevel_ok (S : Solver) (ls : List Lit) (i bj mi : Nat) :
    (∀ q ∈ ls, S.level q.var ≤ (bestLevel S ls i bj mi).1) ∧ bj ≤ (bestLevel S ls i bj mi).1 ∧
      ((bestLevel S ls i bj mi).1 = bj ∨ ∃ q ∈ ls, S.level q.var = (bestLevel S ls i bj mi).1) := by
  induction ls generalizing i bj mi with
  | nil => exact ⟨(fun q hq => by cases hq), Nat.le_refl _, .inl rfl⟩
  | cons l ls ih =>
    rw [bestLevel]
    split
    · rename_i hlt
      obtain ⟨h1, h2, h3⟩ := ih (i + 1) (S.level l.var) i
      refine ⟨?_, by omega, ?_⟩
      · intro q hq
        rcases List.mem_cons.1 hq with rfl | hq
        · exact h2
        · exact h1 q hq
      · rcases h3 with h3 | ⟨q, hq, h3⟩
        · exact .inr ⟨l, by simp, h3.symm⟩
        · exact .inr ⟨q, List.mem_cons_of_mem _ hq, h3⟩
    · rename_i hlt
      obtain ⟨h1, h2, h3⟩ := ih (i + 1) bj mi
      refine ⟨?_, h2, ?_⟩
      · intro q hq
        rcases List.mem_cons.1 hq with rfl | hq
        · omega
        · exact h1 q hq
      · rcases h3 with h3 | ⟨q, hq, h3⟩
        · exact .inl h3
        · exact .inr ⟨q, List.mem_cons_of_mem _ hq, h3⟩

theorem swapFront_perm (ls : List Lit) (j : Nat) : (swapFront ls j).Perm ls := by
  cases ls with
  | nil => cases j <;> exact .refl _
  | cons a as =>
    cases j with
    | zero => exact .refl _
    | succ j =>
      show (match as[j]? with | some x => x :: as.set j a | none => a :: as).Perm (a :: as)
      cases hx : as[j]? with
      | none => exact .refl _
      | some x =>
        simp only
        obtain ⟨hj, rfl⟩ := List.getElem?_eq_some_iff.1 hx
        rw [List.set_eq_take_append_cons_drop, if_pos hj]
        conv => rhs; rw [← List.take_append_drop j as, List.drop_eq_getElem_cons hj]
        refine (List.perm_middle.cons _).trans ?_
        refine (List.Perm.swap _ _ _).trans ?_
        exact (List.perm_middle.symm).cons _

theorem nodup_of_map {L : List Lit} (h : (L.map Lit.var).Nodup) : L.Nodup := by
  unfold List.Nodup at *
  rw [List.pairwise_map] at h
  exact h.imp fun hne e => hne (by rw [e])

/-- The asserting clause. -/
structure Learned (F : List Clause) (S : Solver) (a : Lit) (rest : List Lit) (bj : Nat) : Prop where
  ent : UPEnt (F ++ S.log) (a :: rest)
  af : a.negated ∈ S.trail
  alev : S.level a.var = S.lim.length
  rf : ∀ q ∈ rest, q.negated ∈ S.trail ∧ 0 < S.level q.var ∧ S.level q.var ≤ bj
  bj : bj < S.lim.length
  nodup : (a :: rest).Nodup

theorem analyze_ok (hcore : Core F S) (hdl : 0 < S.lim.length) {ci : Nat} (hf : Falsified S ci) :
    ∃ a rest bj, S.analyze ci = some (a :: rest, bj) ∧ Learned F S a rest bj := by
  obtain ⟨c, hc, hfalse, hcur⟩ := hf.ex
  obtain ⟨p, learned, hscan, hres⟩ := conflict_scan hcore hdl (List.mem_of_getElem? hc) hfalse hcur
  unfold Solver.analyze
  rw [hc]
  simp only [hscan]
  have hbest := bestLevel_ok S (minimize S p.negated learned) 0 0 0
  have hperm := swapFront_perm (minimize S p.negated learned)
    (bestLevel S (minimize S p.negated learned) 0 0 0).2
  have hsub : ∀ q ∈ minimize S p.negated learned, q ∈ learned := fun q hq => (List.mem_filter.1 hq).1
  refine ⟨_, _, _, rfl, ?_, ?_, hres.plev, ?_, ?_, ?_⟩
  · exact (minimize_ok hcore hres).weaken fun q hq => ((hperm.cons _).mem_iff).2 hq
  · rw [Lit.negated_negated]; exact hres.pt
  · intro q hq
    have hq' := hperm.mem_iff.1 hq
    exact ⟨hres.lfalse q (hsub q hq'), (hres.llev q (hsub q hq')).1, hbest.1 q hq'⟩
  · rcases hbest.2.2 with h | ⟨q, hq, h⟩
    · omega
    · have := (hres.llev q (hsub q hq)).2
      omega
  · rw [(hperm.cons _).nodup_iff, List.nodup_cons]
    constructor
    · intro hm
      have := (hres.llev _ (hsub _ hm)).2
      have h2 : S.level p.negated.var = S.lim.length := hres.plev
      omega
    · unfold minimize
      exact (nodup_of_map hres.lnodup).sublist List.filter_sublist

end

end Verif.Sat
