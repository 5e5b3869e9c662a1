import Verif.Sat.CdclReduce
/-!
# The main loops answer correctly
-/

namespace Verif.Sat
open Verif.Proof

section
variable {F : List Clause} {m : Nat} {S : Solver}

/-- The assignment a model stands for. -/
def asg (mdl : List Bool) : Nat → Bool := fun v => mdl.getD v false

theorem Inv.model_ok (h : Inv F m S) (hq : S.qhead = S.trail.length) (he : S.empty = false)
    (hall : ∀ v < S.n, S.value v ≠ none) :
    S.model.length = S.n ∧ Models (asg S.model) F ∧ ∀ l ∈ S.trail, l.holds (asg S.model) := by
  have hhold : ∀ l ∈ S.trail, l.holds (asg S.model) := by
    intro l hl
    have hlt := h.core.rng l hl
    have hv := (h.core.val l.var l.pos).2 hl
    show (S.model.getD l.var false) = l.pos
    unfold Solver.model
    rw [List.getD_eq_getElem?_getD, List.getElem?_map, List.getElem?_range hlt]
    show (S.value l.var == some true) = l.pos
    rw [hv]
    cases l.pos <;> rfl
  refine ⟨by simp [Solver.model], ?_, hhold⟩
  intro c hc
  rcases h.orig.orig c hc with h1 | ⟨ci, hci, c', hc', hs⟩
  · exact h1 _
  · have : ∃ l ∈ c', l ∈ S.trail := by
      match c', hc' with
      | [], hc' => have := h.orig.emp ci hci hc'; rw [he] at this; cases this
      | [l], hc' =>
        obtain ⟨i, hi, _⟩ := h.orig.unit ci hci l hc' he
        exact ⟨l, by simp, List.mem_of_getElem? hi⟩
      | a :: b :: rest, hc' =>
        have hlt := h.core.clsR _ (List.mem_of_getElem? hc') a (by simp)
        have hne := hall a.var hlt
        cases hv : S.value a.var with
        | none => exact absurd hv hne
        | some bv =>
          have hm := (h.core.val a.var bv).1 hv
          by_cases e : bv = a.pos
          · subst e; exact ⟨a, by simp, hm⟩
          · have : (⟨a.var, bv⟩ : Lit) = a.negated := by
              have : bv = !a.pos := by cases bv <;> cases hp : a.pos <;> simp_all
              rw [this]; rfl
            rw [this] at hm
            obtain ⟨i, hi⟩ := List.mem_iff_getElem?.1 hm
            have hilt := (List.getElem?_eq_some_iff.1 hi).1
            obtain ⟨t, t1, t2, _⟩ := h.w1 ci hci _ hc' (by simp) a (by simp) (fun e => e) i (by omega) hi
            exact ⟨t, t1, t2⟩
    obtain ⟨l, h1, h2⟩ := this
    exact ⟨l, hs l h1, hhold l h2⟩

/-- A verdict on the formula alone is right; for `Unsat`, unit propagation in the formula and the log
sees it. -/
def Right (F : List Clause) (n : Nat) : Verdict → Solver → Prop
  | .sat mdl, _ => mdl.length = n ∧ Models (asg mdl) F
  | .unsat, S => NoWorld (F ++ S.log)
  | .panic, _ => False
  | _, _ => True

/-- The state between two calls. -/
structure After (F : List Clause) (m : Nat) (S : Solver) : Prop where
  inv : Inv F m S
  nle : S.nOrig ≤ S.clauses.length
  why : ∀ v ci, S.reason v = some ci → ci < S.nOrig + S.limit ∨ ci < S.clauses.length
  rest : S.lim = [] ∨ S.qhead = S.trail.length

theorem why_ext {S S' : Solver} (h : Ext S S')
    (hw : ∀ v ci, S.reason v = some ci → ci < S.nOrig + S.limit ∨ ci < S.clauses.length) :
    ∀ v ci, S'.reason v = some ci → ci < S'.nOrig + S'.limit ∨ ci < S'.clauses.length := by
  intro v ci hr
  rw [h.nOrig, h.limit, h.len]
  rcases h.why v ci hr with h' | h'
  · exact hw v ci h'
  · exact .inr h'

theorem Bounds.ext {S S' : Solver} (h : Bounds m S) (he : Ext S S') : Bounds m S' := by
  refine ⟨by rw [he.nOrig]; exact h.mle, by rw [he.nOrig, he.len]; exact h.nle, why_ext he h.why, ?_⟩
  rw [he.nOrig, he.len, he.limit, he.reduceOn]
  exact h.live

theorem Bounds.learn {S S' : Solver} (h : Bounds m S) (hl : LearnOK F m S S') : Bounds1 m S' := by
  have hnle := h.nle
  refine ⟨by rw [hl.nOrig]; exact h.mle, by rw [hl.nOrig, hl.len]; omega, ?_, ?_⟩
  · intro v ci hr
    rw [hl.nOrig, hl.limit, hl.len]
    rcases hl.why v ci hr with h' | h'
    · rcases h.why v ci h' with h'' | h''
      · exact .inl h''
      · right; omega
    · right; omega
  · intro hon
    rw [hl.reduceOn] at hon
    have := h.live hon
    rw [hl.nOrig, hl.limit, hl.len]
    omega

theorem Back.why {S S' : Solver} {j : Nat} (h : Back S S' j)
    (hw : ∀ v ci, S.reason v = some ci → ci < S.nOrig + S.limit ∨ ci < S.clauses.length) :
    ∀ v ci, S'.reason v = some ci → ci < S'.nOrig + S'.limit ∨ ci < S'.clauses.length := by
  intro v ci hr
  rw [h.reason] at hr
  rw [h.nOrig, h.limit, h.clauses]
  exact hw v ci hr

theorem Bounds.back {S S' : Solver} {j : Nat} (h : Bounds m S) (he : Back S S' j) : Bounds m S' := by
  refine ⟨by rw [he.nOrig]; exact h.mle, by rw [he.nOrig, he.clauses]; exact h.nle, he.why h.why, ?_⟩
  rw [he.nOrig, he.clauses, he.limit, he.reduceOn]
  exact h.live

/-- Deciding the variable that was picked. -/
theorem decide_ok (h : Inv F m S) (hq : S.qhead = S.trail.length) {hp : List Nat} {l : Lit} (hr : l.var < S.n)
    (hu : S.value l.var = none) (hO : ∀ u < S.n, S.value u = none → u ≠ l.var → u ∈ hp) (hR : ∀ v ∈ hp, v < S.n) :
    Inv F m (({ S with heap := hp } : Solver).decide l) := by
  refine (h.decide hu hr hq).setHeap (hp := hp) ?_ hR
  intro u hu' hn
  have hn' : upd S.value l.var (some l.pos) u = none := hn
  by_cases e : u = l.var
  · subst e; rw [upd_same] at hn'; cases hn'
  · rw [upd_ne _ _ e] at hn'
    exact hO u hu' hn' e

theorem why_decide {S : Solver} {l : Lit}
    (hw : ∀ v ci, S.reason v = some ci → ci < S.nOrig + S.limit ∨ ci < S.clauses.length) :
    ∀ v ci, (S.decide l).reason v = some ci → ci < S.nOrig + S.limit ∨ ci < S.clauses.length := by
  intro v ci hr
  have hr' : upd S.reason l.var none v = some ci := hr
  by_cases e : v = l.var
  · subst e; rw [upd_same] at hr'; cases hr'
  · rw [upd_ne _ _ e] at hr'
    exact hw v ci hr'

theorem Bounds.decide {S : Solver} {l : Lit} (h : Bounds m S) : Bounds m (S.decide l) :=
  ⟨h.mle, h.nle, why_decide h.why, h.live⟩

/-- The formula is still in the part of the database that counts as original. -/
def Held (F : List Clause) (m : Nat) (S : Solver) : Prop :=
  (∀ c ∈ F, (∀ τ, Clause.holds τ c) ∨ ∃ ci < m, ∃ c', S.clauses[ci]? = some c' ∧ ∀ l ∈ c', l ∈ c) ∧ m ≤ S.nOrig

/-- The result of a budgeted call. -/
structure Answer (F : List Clause) (m n : Nat) (r : Verdict × Solver) : Prop where
  right : Right F n r.1 r.2
  core : Core F r.2
  after : r.1 ≠ .unsat → r.1 ≠ .pending → After F m r.2
  n : r.2.n = n
  held : r.1 = .unsat → Held F m r.2

theorem budgetLoop_ok (max : Nat) (chs : List Choice) (k : Nat) (h : Inv F m S) (hb : Bounds m S)
    (he : S.empty = false) : Answer F m S.n (budgetLoop max chs k S) := by
  induction chs generalizing k S with
  | nil => exact ⟨trivial, h.core, fun _ h => absurd rfl h, rfl, (fun e => by cases e)⟩
  | cons ch chs ih =>
    rw [budgetLoop]
    have hp := propagate_ok h
    have hfix := fun S' => propagate_fix (S' := S') h
    revert hp hfix
    rcases S.propagate with ⟨r, S1⟩
    cases r with
    | panic => exact fun hp => hp.elim
    | conflict ci =>
      rintro ⟨hc, hf, hx⟩ _
      simp only
      have hn : S1.n = S.n := hx.n
      split
      · rename_i hl
        obtain ⟨c, h1, h2, _⟩ := hf.ex
        exact ⟨hc.core.refuted hl (List.mem_of_getElem? h1) h2, hc.core, fun h => absurd rfl h, hn,
          fun _ => ⟨hc.orig.orig, by rw [hx.nOrig]; exact hb.mle⟩⟩
      · rename_i hl
        obtain ⟨S2, e, hL⟩ := learn_ok hc hl hf
        rw [e]
        simp only
        have hb2 := (hb.ext hx).learn hL
        split
        · obtain ⟨g1, g2⟩ := backtrack_inv hL.inv 0
          refine ⟨trivial, g1.core, fun _ _ => ⟨g1, ?_, g2.why hb2.why, .inl ?_⟩, g2.n.trans (hL.n.trans hn), (fun e => by cases e)⟩
          · rw [g2.nOrig, g2.clauses]; exact hb2.nle
          · rw [g2.lim]; rfl
        · obtain ⟨S3, e3, i3, b3, n3, em3⟩ := maybeReduce_ok hL.inv ch.drop hb2
          rw [e3]
          simp only
          have hemp : S3.empty = false := by rw [em3, hL.empty, hx.empty]; exact he
          have hn3 : S3.n = S.n := by rw [n3, hL.n]; exact hn
          split
          · obtain ⟨g1, g2⟩ := backtrack_inv i3 0
            have := ih (k + 1) g1 (b3.back g2) (by rw [g2.empty]; exact hemp)
            rwa [g2.n, hn3] at this
          · have := ih (k + 1) i3 b3 hemp
            rwa [hn3] at this
    | done =>
      rintro ⟨hi, hx⟩ hfix
      simp only
      have hq := hfix S1 rfl
      have hb1 := hb.ext hx
      have hn : S1.n = S.n := hx.n
      have he1 : S1.empty = false := by rw [hx.empty]; exact he
      unfold Solver.pickBranch
      obtain ⟨hp, e1, e2, e3⟩ := pickLoop_ok (pop := ch.pop) hi (Nat.lt_succ_self _)
      revert e1 e3
      rcases pickLoop ch.pop (S1.heap.length + 1) S1 with ⟨o, S2⟩
      cases o with
      | none =>
        rintro rfl e3
        simp only
        have hinv : Inv F m { S1 with heap := hp } := hi.setHeap (fun v hv hn => absurd hn (e3 v hv)) e2
        obtain ⟨g1, g2, _⟩ := hinv.model_ok hq he1 e3
        exact ⟨⟨by rw [g1]; exact hn, g2⟩, hinv.core, fun _ _ => ⟨hinv, hb1.nle, hb1.why, .inr hq⟩, hn, (fun e => by cases e)⟩
      | some v =>
        rintro rfl ⟨h1, h2, h3⟩
        simp only
        have := ih k (decide_ok (l := ⟨v, ch.phase v⟩) hi hq h1 h2 h3 e2) (Bounds.decide (S := { S1 with heap := hp })
          ⟨hb1.mle, hb1.nle, hb1.why, hb1.live⟩) he1
        have hn' : (({ S1 with heap := hp } : Solver).decide ⟨v, ch.phase v⟩).n = S.n := hn
        rwa [hn'] at this

theorem budgeted_ok (max : Nat) (chs : List Choice) (h : After F m S) : Answer F m S.n (S.solveBudgeted max chs) ∧
    (S.empty = true → After F m (S.solveBudgeted max chs).2) := by
  have hmle := h.inv.orig.mle
  have hnle := h.nle
  have hinv : Inv F m { S with nOrig := S.clauses.length } := h.inv.setNOrig _
  have hwhy : ∀ v ci, S.reason v = some ci → ci < S.clauses.length + S.limit ∨ ci < S.clauses.length := by
    intro v ci hr
    rcases h.why v ci hr with h' | h'
    · left; omega
    · exact .inr h'
  have hb : Bounds m { S with nOrig := S.clauses.length } := by
    refine ⟨hmle, Nat.le_refl _, hwhy, fun _ => ?_⟩
    have : 1 ≤ Nat.max S.limit 1 := Nat.le_max_right _ _
    show S.clauses.length < S.clauses.length + Nat.max S.limit 1
    omega
  unfold Solver.solveBudgeted
  simp only
  by_cases he : S.empty = true
  · rw [if_pos he]
    have ha : After F m { S with nOrig := S.clauses.length } := ⟨hinv, Nat.le_refl _, hwhy, h.rest⟩
    exact ⟨⟨h.inv.core.empU he, hinv.core, fun e => absurd rfl e, rfl, fun _ => ⟨hinv.orig.orig, hinv.orig.mle⟩⟩, fun _ => ha⟩
  · rw [if_neg he]
    refine ⟨?_, fun e => absurd e he⟩
    have he' : S.empty = false := by simpa using he
    have hp := propagate_ok hinv
    have hlim : ∀ ci S', Solver.propagate { S with nOrig := S.clauses.length } = (.conflict ci, S') → S'.lim = [] := by
      intro ci S' e
      rw [e] at hp
      rcases h.rest with hl | hl
      · exact hp.2.2.lim.trans hl
      · exfalso
        unfold Solver.propagate at e
        rw [propLoop] at e
        have : S.trail[S.qhead]? = none := by rw [hl]; simp
        simp only [this] at e
        cases e
    revert hp hlim
    rcases Solver.propagate { S with nOrig := S.clauses.length } with ⟨r, S1⟩
    cases r with
    | panic => exact fun hp => hp.elim
    | conflict ci =>
      rintro ⟨hc, hf, hx⟩ hlim
      obtain ⟨c, h1, h2, _⟩ := hf.ex
      exact ⟨hc.core.refuted (hlim ci S1 rfl) (List.mem_of_getElem? h1) h2, hc.core, fun h => absurd rfl h, hx.n,
        fun _ => ⟨hc.orig.orig, by rw [hx.nOrig]; exact hmle⟩⟩
    | done =>
      rintro ⟨hi, hx⟩ _
      have := budgetLoop_ok max chs 0 hi (hb.ext hx) (hx.empty.trans he')
      have hn : S1.n = S.n := hx.n
      rwa [hn] at this

/-! ## Assumptions -/

/-- A verdict under assumptions is right. -/
def RightUnder (F : List Clause) (as : List Lit) (n : Nat) : Verdict → Prop
  | .sat mdl => mdl.length = n ∧ Models (asg mdl) F ∧ ∀ a ∈ as, a.holds (asg mdl)
  | .unsat => ¬ ∃ τ, Models τ F ∧ ∀ a ∈ as, a.holds τ
  | .panic => False
  | .budget => False
  | .pending => True

/-- Decisions are assumptions, unless all the assumptions were in place before. -/
def AsInv (as : List Lit) (S : Solver) : Prop :=
  ∀ i ∈ S.lim, ∀ l, S.trail[i]? = some l → l ∈ as ∨ ∀ a ∈ as, a ∈ S.trail.take i

theorem AsInv.prefix {S S' : Solver} {as : List Lit} (h : AsInv as S) (hc : ∀ x ∈ S.lim, x < S.trail.length)
    (hl : S'.lim = S.lim) (hp : S.trail <+: S'.trail) : AsInv as S' := by
  obtain ⟨t, ht⟩ := hp
  intro i hi l hil
  rw [hl] at hi
  have hlt := hc i hi
  rw [← ht, List.getElem?_append_left hlt] at hil
  rw [← ht, List.take_append_of_le_length (Nat.le_of_lt hlt)]
  exact h i hi l hil

theorem AsInv.learn {S S' : Solver} {as : List Lit} (h : AsInv as S) (hl : LearnOK F m S S') : AsInv as S' := by
  obtain ⟨j, hj⟩ := hl.lim
  obtain ⟨t, l, ⟨u, hu⟩, ht, hb⟩ := hl.pre
  intro i hi x hx
  have hlt := hb i hi
  rw [hj] at hi
  rw [ht, List.getElem?_append_left hlt] at hx
  rw [ht, List.take_append_of_le_length (Nat.le_of_lt hlt)]
  have := h i (List.mem_of_mem_take hi) x (by rw [← hu, List.getElem?_append_left hlt]; exact hx)
  rwa [← hu, List.take_append_of_le_length (Nat.le_of_lt hlt)] at this

theorem AsInv.decide {S : Solver} {as : List Lit} {l : Lit} (h : AsInv as S) (hc : ∀ x ∈ S.lim, x < S.trail.length)
    (hl : l ∈ as ∨ ∀ a ∈ as, a ∈ S.trail) : AsInv as (S.decide l) := by
  intro i hi x hx
  have hi' : i ∈ S.lim ++ [S.trail.length] := hi
  have hx' : (S.trail ++ [l])[i]? = some x := hx
  show x ∈ as ∨ ∀ a ∈ as, a ∈ (S.trail ++ [l]).take i
  rcases List.mem_append.1 hi' with hi' | hi'
  · have hlt := hc i hi'
    rw [List.getElem?_append_left hlt] at hx'
    rw [List.take_append_of_le_length (Nat.le_of_lt hlt)]
    exact h i hi' x hx'
  · simp at hi'
    subst hi'
    rcases getElem?_snoc.1 hx' with hx' | ⟨_, rfl⟩
    · have := (List.getElem?_eq_some_iff.1 hx').1; omega
    · rw [List.take_left']
      · exact hl
      · rfl

theorem AsInv.nil {S : Solver} {as : List Lit} (h : S.lim = []) : AsInv as S := by
  intro i hi
  rw [h] at hi
  cases hi

/-- An assumption false on the trail is inconsistent with the formula and the assumptions. -/
theorem AsInv.refutes {as : List Lit} (hcore : Core F S) (h : AsInv as S) {a : Lit} (ha : a ∈ as)
    (hf : a.negated ∈ S.trail) : ¬ ∃ τ, Models τ F ∧ ∀ a ∈ as, a.holds τ := by
  rintro ⟨τ, hτ, has⟩
  have key : ∀ (i : Nat) (l : Lit), S.trail[i]? = some l → l.holds τ := by
    intro i
    induction i using Nat.strongRecOn with
    | _ i ih =>
      intro l hl
      rcases Nat.eq_zero_or_pos (lv S.lim i) with h0 | h0
      · exact hcore.zero i l hl h0 τ hτ
      · cases hr : S.reason l.var with
        | none =>
          have hm := hcore.whyN i l hl h0 hr
          rcases h i hm l hl with h1 | h1
          · exact has l h1
          · exact absurd (List.mem_of_mem_take (h1 a ha)) (fun hm => hcore.not_both hm hf)
        | some ci =>
          obtain ⟨c, hc, _, hoth⟩ := hcore.whyC i l ci hl h0 hr
          obtain ⟨q, hq, hh⟩ := hcore.cls c (List.mem_of_getElem? hc) τ hτ
          by_cases e : q = l
          · subst e; exact hh
          · obtain ⟨j, hj, hqj⟩ := mem_take_iff.1 (hoth q hq e)
            exact absurd hh ((Lit.holds_negated τ q).1 (ih j hj _ hqj))
  obtain ⟨i, hi⟩ := List.mem_iff_getElem?.1 hf
  exact (Lit.holds_negated τ a).1 (key i _ hi) (has a ha)

theorem firstOpen_holds {as : List Lit} (h : firstOpen S as = .holds) : ∀ a ∈ as, S.val a = some true := by
  induction as with
  | nil => intro a ha; cases ha
  | cons x as ih =>
    rw [firstOpen] at h
    cases hv : S.val x with
    | none => rw [hv] at h; cases h
    | some b =>
      cases b with
      | false => rw [hv] at h; cases h
      | true =>
        rw [hv] at h
        intro a ha
        rcases List.mem_cons.1 ha with rfl | ha
        · exact hv
        · exact ih h a ha

theorem firstOpen_refuted {as : List Lit} (h : firstOpen S as = .refuted) : ∃ a ∈ as, S.val a = some false := by
  induction as with
  | nil => cases h
  | cons x as ih =>
    rw [firstOpen] at h
    cases hv : S.val x with
    | none => rw [hv] at h; cases h
    | some b =>
      cases b with
      | false => exact ⟨x, by simp, hv⟩
      | true =>
        rw [hv] at h
        obtain ⟨a, ha, e⟩ := ih h
        exact ⟨a, List.mem_cons_of_mem _ ha, e⟩

theorem firstOpen_place {as : List Lit} {l : Lit} (h : firstOpen S as = .place l) : l ∈ as ∧ S.val l = none := by
  induction as with
  | nil => cases h
  | cons x as ih =>
    rw [firstOpen] at h
    cases hv : S.val x with
    | none =>
      rw [hv] at h
      cases h
      exact ⟨by simp, hv⟩
    | some b =>
      cases b with
      | false => rw [hv] at h; cases h
      | true =>
        rw [hv] at h
        exact ⟨List.mem_cons_of_mem _ (ih h).1, (ih h).2⟩

/-- The state after the formula itself was refuted: the flag is set. -/
structure Latched (F : List Clause) (m : Nat) (S : Solver) : Prop where
  core : Core F S
  empty : S.empty = true
  lim : S.lim = []
  orig : ∀ c ∈ F, (∀ τ, Clause.holds τ c) ∨ ∃ ci < m, ∃ c', S.clauses[ci]? = some c' ∧ ∀ l ∈ c', l ∈ c
  mle : m ≤ S.clauses.length

theorem Core.latch (h : Core F S) (hu : NoWorld (F ++ S.log)) : Core F { S with empty := true } :=
  { nodup := h.nodup, val := h.val, rng := h.rng, limS := h.limS, limB := h.limB, lev := h.lev,
    qle := h.qle, limQ := h.limQ, whyN := h.whyN, whyC := h.whyC, zeroU := h.zeroU, clsU := h.clsU,
    clsR := h.clsR, clsN := h.clsN, clsT := h.clsT, logU := h.logU, logR := h.logR, empU := fun _ => hu, heapO := h.heapO, heapR := h.heapR }

/-- The result of a call under assumptions. -/
structure AnswerU (F : List Clause) (m n : Nat) (as : List Lit) (r : Verdict × Solver) : Prop where
  right : RightUnder F as n r.1
  core : Core F r.2
  after : r.1 ≠ .pending → After F m r.2 ∨ Latched F m r.2
  n : r.2.n = n

theorem unsat_under {as : List Lit} (h : ¬ Satisfiable F) : ¬ ∃ τ, Models τ F ∧ ∀ a ∈ as, a.holds τ :=
  fun ⟨τ, h1, _⟩ => h ⟨τ, h1⟩

theorem assumeLoop_ok (as : List Lit) (chs : List Choice) (has : ∀ a ∈ as, a.var < S.n) (h : Inv F m S)
    (hnle : S.nOrig ≤ S.clauses.length)
    (hw : ∀ v ci, S.reason v = some ci → ci < S.nOrig + S.limit ∨ ci < S.clauses.length)
    (hA : AsInv as S) (he : S.empty = false) : AnswerU F m S.n as (assumeLoop as chs S) := by
  induction chs generalizing S with
  | nil => exact ⟨trivial, h.core, fun h => absurd rfl h, rfl⟩
  | cons ch chs ih =>
    rw [assumeLoop]
    have hp := propagate_ok h
    have hfix := fun S' => propagate_fix (S' := S') h
    revert hp hfix
    rcases S.propagate with ⟨r, S1⟩
    cases r with
    | panic => exact fun hp => hp.elim
    | conflict ci =>
      rintro ⟨hc, hf, hx⟩ _
      simp only
      have hn : S1.n = S.n := hx.n
      split
      · rename_i hl
        obtain ⟨c, h1, h2, _⟩ := hf.ex
        have hu := hc.core.refuted hl (List.mem_of_getElem? h1) h2
        exact ⟨unsat_under (hu.unsat hc.core.logU), hc.core.latch hu, fun _ => .inr ⟨hc.core.latch hu, rfl, hl, hc.orig.orig, hc.orig.mle⟩, hn⟩
      · rename_i hl
        obtain ⟨S2, e, hL⟩ := learn_ok hc hl hf
        rw [e]
        simp only
        have hn2 : S2.n = S.n := hL.n.trans hn
        have := ih (S := S2) (by rw [hn2]; exact has) hL.inv
          (by rw [hL.nOrig, hL.len, hx.nOrig, hx.len]; omega) (by
            intro v cj hr
            rw [hL.nOrig, hL.limit, hL.len]
            rcases hL.why v cj hr with h' | h'
            · rcases why_ext hx hw v cj h' with h'' | h''
              · exact .inl h''
              · right; omega
            · right; omega)
          ((hA.prefix h.core.limB hx.lim hx.pre).learn hL) (by rw [hL.empty, hx.empty]; exact he)
        rwa [hn2] at this
    | done =>
      rintro ⟨hi, hx⟩ hfix
      simp only
      have hq := hfix S1 rfl
      have hn : S1.n = S.n := hx.n
      have he1 : S1.empty = false := by rw [hx.empty]; exact he
      have hA1 := hA.prefix h.core.limB hx.lim hx.pre
      have hw1 := why_ext hx hw
      have hnle1 : S1.nOrig ≤ S1.clauses.length := by rw [hx.nOrig, hx.len]; exact hnle
      cases ho : firstOpen S1 as with
      | refuted =>
        simp only
        obtain ⟨a, ha, hv⟩ := firstOpen_refuted ho
        exact ⟨hA1.refutes hi.core ha ((hi.core.val_false a).1 hv), hi.core, fun _ => .inl ⟨hi, hnle1, hw1, .inr hq⟩, hn⟩
      | place l =>
        simp only
        obtain ⟨h1, h2⟩ := firstOpen_place ho
        have hn' : (S1.decide l).n = S.n := hn
        have := ih (S := S1.decide l) (by rw [hn']; exact has)
          (hi.decide ((val_none _ _).1 h2) (by rw [hn]; exact has l h1) hq) hnle1 (why_decide hw1)
          (hA1.decide hi.core.limB (.inl h1)) he1
        rwa [hn'] at this
      | holds =>
        simp only
        have hall := firstOpen_holds ho
        unfold Solver.pickBranch
        obtain ⟨hp, e1, e2, e3⟩ := pickLoop_ok (pop := ch.pop) hi (Nat.lt_succ_self _)
        revert e1 e3
        rcases pickLoop ch.pop (S1.heap.length + 1) S1 with ⟨o, S2⟩
        cases o with
        | none =>
          rintro rfl e3
          simp only
          have hinv : Inv F m { S1 with heap := hp } := hi.setHeap (fun v hv hn => absurd hn (e3 v hv)) e2
          obtain ⟨g1, g2, g3⟩ := hinv.model_ok hq he1 e3
          refine ⟨⟨by rw [g1]; exact hn, g2, fun a ha => g3 a ((hi.core.val_true a).1 (hall a ha))⟩, hinv.core,
            fun _ => .inl ⟨hinv, hnle1, hw1, .inr hq⟩, hn⟩
        | some v =>
          rintro rfl ⟨h1, h2, h3⟩
          simp only
          have hn' : (({ S1 with heap := hp } : Solver).decide ⟨v, ch.phase v⟩).n = S.n := hn
          have := ih (S := ({ S1 with heap := hp } : Solver).decide ⟨v, ch.phase v⟩) (by rw [hn']; exact has)
            (decide_ok (l := ⟨v, ch.phase v⟩) hi hq h1 h2 h3 e2) hnle1
            (why_decide (S := { S1 with heap := hp }) hw1)
            (AsInv.decide (S := { S1 with heap := hp }) hA1 hi.core.limB
              (.inr fun a ha => (hi.core.val_true a).1 (hall a ha))) he1
          rwa [hn'] at this

theorem assuming_ok (as : List Lit) (chs : List Choice) (has : ∀ a ∈ as, a.var < S.n) (h : After F m S) :
    AnswerU F m S.n as (S.solveAssuming as chs) := by
  unfold Solver.solveAssuming
  simp only
  obtain ⟨g1, g2⟩ := backtrack_inv h.inv 0
  have hnle : (S.backtrackTo 0).nOrig ≤ (S.backtrackTo 0).clauses.length := by
    rw [g2.nOrig, g2.clauses]; exact h.nle
  have hlim : (S.backtrackTo 0).lim = [] := by rw [g2.lim]; rfl
  have hw := g2.why h.why
  have hn : (S.backtrackTo 0).n = S.n := g2.n
  revert g1 hnle hlim hw hn
  generalize S.backtrackTo 0 = S0
  intro g1 hnle hlim hw hn
  by_cases he : S0.empty = true
  · rw [if_pos he]
    exact ⟨unsat_under (g1.core.emp he), g1.core, fun _ => .inl ⟨g1, hnle, hw, .inl hlim⟩, hn⟩
  · rw [if_neg he]
    have hp := propagate_ok g1
    revert hp
    rcases S0.propagate with ⟨r, S1⟩
    cases r with
    | panic => exact fun hp => hp.elim
    | conflict ci =>
      rintro ⟨hc, hf, hx⟩
      have hl : S1.lim = [] := hx.lim.trans hlim
      obtain ⟨c, h1, h2, _⟩ := hf.ex
      have hu := hc.core.refuted hl (List.mem_of_getElem? h1) h2
      exact ⟨unsat_under (hu.unsat hc.core.logU), hc.core.latch hu, fun _ => .inr ⟨hc.core.latch hu, rfl, hl, hc.orig.orig, hc.orig.mle⟩, hx.n.trans hn⟩
    | done =>
      rintro ⟨hi, hx⟩
      have hn1 : S1.n = S.n := hx.n.trans hn
      have := assumeLoop_ok as chs (S := S1) (by rw [hn1]; exact has) hi (by rw [hx.nOrig, hx.len]; exact hnle)
        (why_ext hx hw) (AsInv.nil (hx.lim.trans hlim)) (by rw [hx.empty]; simpa using he)
      rwa [hn1] at this

theorem latched_budgeted (h : Latched F m S) (max : Nat) (chs : List Choice) :
    (S.solveBudgeted max chs).1 = .unsat ∧ ¬ Satisfiable F ∧ Latched F m (S.solveBudgeted max chs).2 ∧
      Held F m (S.solveBudgeted max chs).2 := by
  unfold Solver.solveBudgeted
  simp only [h.empty, if_true]
  have hc := h.core
  refine ⟨trivial, h.core.emp h.empty, ⟨?_, rfl, h.lim, h.orig, h.mle⟩, h.orig, h.mle⟩
  exact
    { nodup := hc.nodup, val := hc.val, rng := hc.rng, limS := hc.limS, limB := hc.limB, lev := hc.lev,
      qle := hc.qle, limQ := hc.limQ, whyN := hc.whyN, whyC := hc.whyC, zeroU := hc.zeroU, clsU := hc.clsU,
      clsR := hc.clsR, clsN := hc.clsN, clsT := hc.clsT, logU := hc.logU, logR := hc.logR, empU := fun _ => hc.empU h.empty, heapO := hc.heapO, heapR := hc.heapR }

theorem latched_assuming (h : Latched F m S) (as : List Lit) (chs : List Choice) :
    (S.solveAssuming as chs).1 = .unsat ∧ Latched F m (S.solveAssuming as chs).2 ∧ (S.solveAssuming as chs).2.n = S.n := by
  have : S.backtrackTo 0 = S := by
    unfold Solver.backtrackTo
    rw [h.lim]; rfl
  unfold Solver.solveAssuming
  simp only [this, h.empty, if_true]
  exact ⟨trivial, h, trivial⟩

/-! ## Loading a formula -/

theorem Core.weaken {G : List Clause} (h : Core F S) (hs : ∀ c ∈ F, c ∈ G) : Core G S := by
  have hm : ∀ d ∈ F ++ S.log, d ∈ G ++ S.log := by
    intro d hd
    rcases List.mem_append.1 hd with hd | hd
    · exact List.mem_append_left _ (hs d hd)
    · exact List.mem_append_right _ hd
  exact
    { nodup := h.nodup, val := h.val, rng := h.rng, limS := h.limS, limB := h.limB, lev := h.lev,
      qle := h.qle, limQ := h.limQ, whyN := h.whyN, whyC := h.whyC,
      zeroU := fun i l hi h0 P hP => h.zeroU i l hi h0 P (hP.mono hm),
      clsU := fun c hc => (h.clsU c hc).mono hm,
      clsR := h.clsR, clsN := h.clsN, clsT := h.clsT, logU := h.logU.grow hs, logR := h.logR,
      empU := fun he => (h.empU he).mono hm, heapO := h.heapO, heapR := h.heapR }

theorem dedupAdj_mem (c : List Lit) (l : Lit) : l ∈ dedupAdj c ↔ l ∈ c := by
  induction c with
  | nil => rfl
  | cons a c ih =>
    cases c with
    | nil => rfl
    | cons b c =>
      rw [dedupAdj]
      split
      · rename_i e
        subst e
        rw [ih]; simp
      · rw [List.mem_cons, ih, List.mem_cons (a := l) (b := a)]

theorem dedupAdj_head (a : Lit) (c : List Lit) : ∃ t, dedupAdj (a :: c) = a :: t := by
  induction c generalizing a with
  | nil => exact ⟨[], rfl⟩
  | cons b c ih =>
    rw [dedupAdj]
    split
    · rename_i e; subst e; exact ih a
    · exact ⟨_, rfl⟩

/-- consecutive elements differ -/
def AdjNe : List Lit → Prop
  | a :: b :: rest => a ≠ b ∧ AdjNe (b :: rest)
  | _ => True

theorem dedupAdj_adjNe (c : List Lit) : AdjNe (dedupAdj c) := by
  induction c with
  | nil => exact trivial
  | cons a c ih =>
    cases c with
    | nil => exact trivial
    | cons b c =>
      rw [dedupAdj]
      split
      · exact ih
      · rename_i hne
        obtain ⟨t, ht⟩ := dedupAdj_head b c
        rw [ht] at ih ⊢
        exact ⟨hne, ih⟩

theorem dedupAdj_sub (c : List Lit) : (dedupAdj c).Sublist c := by
  induction c with
  | nil => exact List.Sublist.refl _
  | cons a c ih =>
    cases c with
    | nil => exact List.Sublist.refl _
    | cons b c =>
      rw [dedupAdj]
      split
      · exact ih.trans (List.sublist_cons_self _ _)
      · exact ih.cons_cons a

theorem litCode_inj {a b : Lit} (h : litCode a = litCode b) : a = b := by
  unfold litCode at h
  cases a with
  | mk av ap =>
    cases b with
    | mk bv bp =>
      cases ap <;> cases bp <;> simp at h ⊢ <;> omega

theorem normClause_mem (c : List Lit) (l : Lit) : l ∈ normClause c ↔ l ∈ c := by
  unfold normClause
  rw [dedupAdj_mem]
  exact (sortBy_perm _ c).mem_iff

theorem normClause_sorted (c : List Lit) : (normClause c).Pairwise fun a b => litCode a ≤ litCode b := by
  unfold normClause
  refine List.Pairwise.sublist (dedupAdj_sub _) ?_
  have := sortBy_pairwise (le := fun a b : Lit => decide (litCode a ≤ litCode b))
    (by intro a b c; simp; omega) (by intro a b; simp; omega) c
  exact this.imp (by intro a b h; simpa using h)

/-- A sorted clause without neighbours of the same variable has no complementary literals. -/
theorem adjVar_free {c : List Lit} (hs : c.Pairwise fun a b => litCode a ≤ litCode b) (hf : adjVar c = false) :
    ∀ l ∈ c, l.negated ∉ c := by
  have key : c.Pairwise fun a b => a.var < b.var := by
    induction c with
    | nil => exact .nil
    | cons a c ih =>
      cases c with
      | nil => simp
      | cons b c =>
        rw [adjVar, Bool.or_eq_false_iff] at hf
        have h1 := ih (List.pairwise_cons.1 hs).2 hf.2
        have hab : a.var < b.var := by
          have h2 := (List.pairwise_cons.1 hs).1 b (by simp)
          have h3 : a.var ≠ b.var := by simpa using hf.1
          unfold litCode at h2
          split at h2 <;> split at h2 <;> omega
        refine List.pairwise_cons.2 ⟨?_, h1⟩
        intro x hx
        rcases List.mem_cons.1 hx with rfl | hx
        · exact hab
        · exact Nat.lt_trans hab ((List.pairwise_cons.1 h1).1 x hx)
  intro l hl hn
  obtain ⟨i, hi, e1⟩ := List.mem_iff_getElem.1 hl
  obtain ⟨j, hj, e2⟩ := List.mem_iff_getElem.1 hn
  have hp := List.pairwise_iff_getElem.1 key
  have hv : c[i].var = c[j].var := by rw [e1, e2]; rfl
  rcases Nat.lt_trichotomy i j with h | h | h
  · have := hp i j hi hj h; omega
  · subst h
    rw [e1] at e2
    exact Lit.negated_ne l e2.symm
  · have := hp j i hj hi h; omega

theorem sorted_nodup {c : List Lit} (hs : c.Pairwise fun a b => litCode a ≤ litCode b) (hn : AdjNe c) : c.Nodup := by
  induction c with
  | nil => exact List.nodup_nil
  | cons a c ih =>
    rw [List.pairwise_cons] at hs
    cases c with
    | nil => simp
    | cons b c =>
      rw [List.nodup_cons]
      refine ⟨?_, ih hs.2 hn.2⟩
      intro hm
      have h1 := hs.1 b (by simp)
      have h2 : litCode b ≤ litCode a := by
        rcases List.mem_cons.1 hm with rfl | hm
        · exact Nat.le_refl _
        · exact (List.pairwise_cons.1 hs.2).1 a hm
      exact hn.1 (litCode_inj (by omega))

theorem adjVar_taut {c : List Lit} (hn : AdjNe c) (h : adjVar c = true) (τ : Nat → Bool) : Clause.holds τ c := by
  induction c with
  | nil => cases h
  | cons a c ih =>
    cases c with
    | nil => cases h
    | cons b c =>
      rw [adjVar, Bool.or_eq_true] at h
      rcases h with h | h
      · have hv : a.var = b.var := by simpa using h
        have hb : b = a.negated := by
          have := hn.1
          cases a with
          | mk av ap =>
            cases b with
            | mk bv bp =>
              simp at hv; subst hv
              cases ap <;> cases bp <;> simp_all [Lit.negated]
        by_cases ha : a.holds τ
        · exact ⟨a, by simp, ha⟩
        · exact ⟨b, by simp, by rw [hb, Lit.holds_negated]; exact ha⟩
      · obtain ⟨l, hl, hh⟩ := ih hn.2 h
        exact ⟨l, List.mem_cons_of_mem _ hl, hh⟩

/-- The state while clauses are added. -/
structure Loading (F : List Clause) (n : Nat) (S : Solver) : Prop where
  inv : Inv F S.clauses.length S
  lim : S.lim = []
  q : S.qhead = 0
  n : S.n = n
  why : ∀ v ci, S.reason v = some ci → ci < S.clauses.length
  orig : S.nOrig = 0

theorem Loading.new (n : Nat) : Loading [] n (.new n) := by
  refine ⟨⟨?_, ?_, ?_, ?_, ?_⟩, rfl, rfl, rfl, ?_, rfl⟩
  · exact
      { nodup := List.nodup_nil
        val := fun v b => ⟨(fun h => by cases h), fun h => by cases h⟩
        rng := fun l hl => by cases hl
        limS := List.Pairwise.nil
        limB := fun x hx => by cases hx
        lev := fun i l hi => by simp [Solver.new] at hi
        qle := Nat.le_refl _
        limQ := fun x hx => by cases hx
        whyN := fun i l hi => by simp [Solver.new] at hi
        whyC := fun i l ci hi => by simp [Solver.new] at hi
        zeroU := fun i l hi => by simp [Solver.new] at hi
        clsU := fun c hc => by cases hc
        clsR := fun c hc => by cases hc
        clsN := fun c hc => by cases hc
        clsT := fun c hc => by cases hc
        logU := Derived.nil _
        logR := (fun c hc => by cases hc)
        empU := fun h => by cases h
        heapO := fun v hv _ => List.mem_range.2 hv
        heapR := fun v hv => List.mem_range.1 hv }
  · exact ⟨fun c hc => (by cases hc), Nat.le_refl _, fun ci hci => absurd hci (Nat.not_lt_zero _),
      fun ci hci => absurd hci (Nat.not_lt_zero _)⟩
  · exact ⟨fun l w hw => (by cases hw), fun l => List.nodup_nil⟩
  · exact fun ci hci => absurd hci (Nat.not_lt_zero _)
  · exact fun ci hci => absurd hci (Nat.not_lt_zero _)
  · intro v ci h; cases h

theorem Loading.add {n : Nat} (h : Loading F n S) {c : List Lit} (hr : ∀ l ∈ c, l.var < n) :
    Loading (F ++ [c]) n (S.addClause c) := by
  have hmono : ∀ d ∈ F, d ∈ F ++ [c] := fun d hd => List.mem_append_left _ hd
  have hcore := h.inv.core.weaken hmono
  unfold Solver.addClause
  by_cases ht : adjVar (normClause c) = true
  · rw [if_pos ht]
    refine ⟨⟨hcore, ⟨?_, h.inv.orig.mle, h.inv.orig.unit, h.inv.orig.emp⟩, h.inv.wat, h.inv.watO, h.inv.w1⟩,
      h.lim, h.q, h.n, h.why, h.orig⟩
    intro d hd
    rcases List.mem_append.1 hd with hd | hd
    · exact h.inv.orig.orig d hd
    · simp at hd; subst hd
      left
      intro τ
      obtain ⟨l, hl, hh⟩ := adjVar_taut (dedupAdj_adjNe _) ht τ
      exact ⟨l, (normClause_mem _ l).1 hl, hh⟩
  · rw [if_neg ht]
    have hmem := normClause_mem c
    have hnd : (normClause c).Nodup := sorted_nodup (normClause_sorted c) (dedupAdj_adjNe _)
    have htt := adjVar_free (normClause_sorted c) (by simpa using ht)
    revert hmem hnd htt
    generalize normClause c = d
    intro hmem hnd htt
    have hent : Acts (F ++ [c] ++ S.log) d := Acts.congr (.mem (c := c) (by simp)) hmem
    have hdr : ∀ l ∈ d, l.var < S.n := fun l hl => by rw [h.n]; exact hr l ((hmem l).1 hl)
    -- the database with the clause appended
    have horig : ∀ x ∈ F ++ [c], (∀ τ, Clause.holds τ x) ∨
        ∃ ci < S.clauses.length + 1, ∃ c', (S.clauses ++ [d])[ci]? = some c' ∧ ∀ l ∈ c', l ∈ x := by
      intro x hx
      rcases List.mem_append.1 hx with hx | hx
      · rcases h.inv.orig.orig x hx with h1 | ⟨ci, hci, c', hc', hs⟩
        · exact .inl h1
        · exact .inr ⟨ci, by omega, c', getElem?_snoc.2 (.inl hc'), hs⟩
      · simp at hx; subst hx
        exact .inr ⟨S.clauses.length, by omega, d, getElem?_snoc.2 (.inr ⟨rfl, rfl⟩), fun l hl => (hmem l).1 hl⟩
    have hAcore : ∀ W, Core (F ++ [c]) (appendClause S d S.log W) := fun W =>
      hcore.append hent hdr hnd htt ⟨hcore.logU, fun _ hd => hd, hcore.logR⟩
    have hlen : (S.clauses ++ [d]).length = S.clauses.length + 1 := by simp
    have hwatO : ∀ (W : Lit → List Watcher), (∀ l, ∀ w ∈ S.watches l, w ∈ W l) →
        (2 ≤ d.length → ∀ l ∈ d.take 2, ∃ w ∈ W l, w.clause = S.clauses.length) →
        WatO (S.clauses ++ [d]).length (S.clauses ++ [d]) W := by
      intro W hW hnew ci hci x hx h2 l hl
      rcases getElem?_snoc.1 hx with hx | ⟨rfl, rfl⟩
      · obtain ⟨w, hw, e⟩ := h.inv.watO ci (List.getElem?_eq_some_iff.1 hx).1 x hx h2 l hl
        exact ⟨w, hW l w hw, e⟩
      · exact hnew h2 l hl
    have hw1 : ∀ S' : Solver, S'.qhead = 0 → W1 S'.clauses.length S' (fun _ _ => False) := by
      intro S' hq ci hci x hx h2 f hf _ i hi
      omega
    have hunit : ∀ (x : Lit) (ci : Nat), ci < S.clauses.length + 1 → (S.clauses ++ [d])[ci]? = some [x] →
        (S.clauses[ci]? = some [x] ∧ ci < S.clauses.length) ∨ d = [x] := by
      intro x ci hci hx
      rcases getElem?_snoc.1 hx with hx | ⟨_, hx⟩
      · exact .inl ⟨hx, (List.getElem?_eq_some_iff.1 hx).1⟩
      · exact .inr hx
    have hlv : ∀ i, lv S.lim i = 0 := by intro i; rw [h.lim]; rfl
    unfold Solver.addRaw
    match d, hent, hdr, hnd, horig, hAcore, hlen, hwatO, hunit with
    | [], hent, hdr, hnd, horig, hAcore, hlen, hwatO, hunit =>
      simp only
      have hun : NoWorld (F ++ [c] ++ S.log) := fun P hP => hent.conf P hP fun q hq => by cases hq
      refine ⟨⟨(hAcore S.watches).latch hun, ⟨?_, Nat.le_refl _, ?_, fun _ _ _ => rfl⟩, h.inv.wat.append _, ?_, ?_⟩,
        h.lim, h.q, h.n, ?_, h.orig⟩
      · intro x hx
        rcases horig x hx with h1 | ⟨ci, h1, h2⟩
        · exact .inl h1
        · exact .inr ⟨ci, by rw [← hlen] at h1; exact h1, h2⟩
      · intro ci hci l hl he; cases he
      · exact hwatO S.watches (fun _ _ h => h) (fun h2 => by simp at h2)
      · exact hw1 _ h.q
      · intro v ci hv
        have := h.why v ci hv
        show ci < (S.clauses ++ [[]]).length
        simp; omega
    | [l], hent, hdr, hnd, horig, hAcore, hlen, hwatO, hunit =>
      simp only
      have hwhy : ∀ v ci, S.reason v = some ci → ci < (S.clauses ++ [[l]]).length := by
        intro v ci hv
        have := h.why v ci hv
        simp; omega
      have hO : ∀ x ∈ F ++ [c], (∀ τ, Clause.holds τ x) ∨
        ∃ ci < (S.clauses ++ [[l]]).length, ∃ c', (S.clauses ++ [[l]])[ci]? = some c' ∧ ∀ l ∈ c', l ∈ x := by
        rw [hlen]; exact horig
      have hemp : ∀ ci < (S.clauses ++ [[l]]).length, (S.clauses ++ [[l]])[ci]? = some [] → S.empty = true := by
        intro ci hci hx
        rcases getElem?_snoc.1 hx with hx | ⟨_, hx⟩
        · exact h.inv.orig.emp ci (List.getElem?_eq_some_iff.1 hx).1 hx
        · cases hx
      have hWO := hwatO S.watches (fun _ _ h => h) (fun h2 => by simp at h2)
      cases hv : S.val l with
      | none =>
        simp only
        have hu := (val_none S l).1 hv
        have hlr : l.var < S.n := hdr l (by simp)
        have hce := (hAcore S.watches).enqueue (l := l) (ci := S.clauses.length) hu hlr
          ⟨[l], getElem?_snoc.2 (.inr ⟨rfl, rfl⟩), by simp, fun q hq hne => by simp at hq; exact absurd hq hne⟩
        refine ⟨⟨hce, ⟨hO, Nat.le_refl _, ?_, hemp⟩, h.inv.wat.append _, hWO, ?_⟩, h.lim, h.q, h.n, ?_, h.orig⟩
        · intro ci hci x hx he
          rcases hunit x ci (by rw [← hlen]; exact hci) hx with ⟨hx, hlt⟩ | e
          · obtain ⟨i, hi, _⟩ := h.inv.orig.unit ci hlt x hx he
            exact ⟨i, getElem?_snoc.2 (.inl hi), hlv i⟩
          · cases e
            exact ⟨S.trail.length, getElem?_snoc.2 (.inr ⟨rfl, rfl⟩), hlv _⟩
        · exact hw1 _ h.q
        · intro v ci hr
          have hr' : upd S.reason l.var (some S.clauses.length) v = some ci := hr
          by_cases e : v = l.var
          · subst e; rw [upd_same] at hr'; cases hr'
            show S.clauses.length < (S.clauses ++ [[l]]).length
            simp
          · rw [upd_ne _ _ e] at hr'
            exact hwhy v ci hr'
      | some b =>
        cases b with
        | true =>
          simp only
          refine ⟨⟨hAcore S.watches, ⟨hO, Nat.le_refl _, ?_, hemp⟩, h.inv.wat.append _, hWO, hw1 _ h.q⟩,
            h.lim, h.q, h.n, hwhy, h.orig⟩
          intro ci hci x hx he
          rcases hunit x ci (by rw [← hlen]; exact hci) hx with ⟨hx, hlt⟩ | e
          · exact h.inv.orig.unit ci hlt x hx he
          · cases e
            obtain ⟨i, hi⟩ := List.mem_iff_getElem?.1 ((h.inv.core.val_true l).1 hv)
            exact ⟨i, hi, hlv i⟩
        | false =>
          simp only
          have hun : NoWorld (F ++ [c] ++ S.log) := by
            intro P hP
            refine hent.conf P hP fun q hq => ?_
            simp at hq; subst hq
            exact hcore.zero_allU h.lim _ ((h.inv.core.val_false q).1 hv) P hP
          refine ⟨⟨(hAcore S.watches).latch hun, ⟨hO, Nat.le_refl _, ?_, fun _ _ _ => rfl⟩, h.inv.wat.append _, hWO,
            hw1 _ h.q⟩, h.lim, h.q, h.n, hwhy, h.orig⟩
          intro ci hci x hx he; cases he
    | a :: b :: rest, hent, hdr, hnd, horig, hAcore, hlen, hwatO, hunit =>
      simp only
      have hab : a ≠ b := by intro e; subst e; simp at hnd
      have hW : WatO (S.clauses ++ [a :: b :: rest]).length (S.clauses ++ [a :: b :: rest])
          (pushWatch S.watches S.clauses.length a b (rest.length + 2 == 2)) :=
        hwatO _ (fun l w hw => push_mem hab hw) (fun _ l hl => push_new hab (by simpa using hl))
      have hwat : Wat (S.clauses ++ [a :: b :: rest])
          (pushWatch S.watches S.clauses.length a b (rest.length + 2 == 2)) :=
        (h.inv.wat.append _).push (getElem?_snoc.2 (.inr ⟨rfl, rfl⟩)) hab h.inv.wat.bound
      refine ⟨⟨hAcore _, ⟨?_, Nat.le_refl _, ?_, ?_⟩, hwat, hW, hw1 _ h.q⟩, h.lim, h.q, h.n, ?_, h.orig⟩
      · show ∀ x ∈ F ++ [c], (∀ τ, Clause.holds τ x) ∨
          ∃ ci < (S.clauses ++ [a :: b :: rest]).length, _
        rw [hlen]; exact horig
      · intro ci hci x hx he
        rcases hunit x ci (by rw [← hlen]; exact hci) hx with ⟨hx, hlt⟩ | e
        · exact h.inv.orig.unit ci hlt x hx he
        · cases e
      · intro ci hci hx
        rcases getElem?_snoc.1 hx with hx | ⟨_, hx⟩
        · exact h.inv.orig.emp ci (List.getElem?_eq_some_iff.1 hx).1 hx
        · cases hx
      · intro v ci hv
        have := h.why v ci hv
        show ci < (S.clauses ++ [a :: b :: rest]).length
        simp; omega

theorem load_loading {n : Nat} (G : List (List Lit)) (hr : ∀ c ∈ G, ∀ l ∈ c, l.var < n) (h : Loading F n S) :
    Loading (F ++ G) n (G.foldl Solver.addClause S) := by
  induction G generalizing F S with
  | nil => rw [List.append_nil]; exact h
  | cons c G ih =>
    have := ih (fun d hd => hr d (List.mem_cons_of_mem _ hd)) (h.add (hr c (by simp)))
    rwa [List.append_assoc] at this

theorem load_ok {n : Nat} (F : List (List Lit)) (hr : ∀ c ∈ F, ∀ l ∈ c, l.var < n) : Loading F n (load n F) := by
  have := load_loading F hr (Loading.new n)
  rwa [List.nil_append] at this

end

end Verif.Sat
