import Verif.Lang.DceLemmas

/-! # Running a program without its dead code -/
namespace Verif.Lang

/-- If the first step succeeds, so does the second, with the same result and related states. -/
def Fwd {α : Type} (Q : State → State → Prop) (r r' : Res α) : Prop :=
  ∀ a s', r = (.ok a, s') → ∃ t', r' = (.ok a, t') ∧ Q s' t'

section
variable {α β : Type} {Q Q' : State → State → Prop}

theorem fwd_ret (a : Except Err α) {s t : State} (h : Q s t) : Fwd Q (a, s) (a, t) := by
  intro b s' h'
  simp only [Prod.mk.injEq] at h'
  obtain ⟨rfl, rfl⟩ := h'
  exact ⟨t, rfl, h⟩

theorem fwd_bind {r r' : Res α} {k k' : α → State → Res β} (h : Fwd Q r r')
    (hk : ∀ a s t, Q s t → Fwd Q' (k a s) (k' a t)) : Fwd Q' (r.bind k) (r'.bind k') := by
  intro b s' h'
  rw [bind_ok_iff] at h'
  obtain ⟨a, s1, h1, h2⟩ := h'
  obtain ⟨t1, h3, h4⟩ := h a s1 h1
  obtain ⟨t', h5, h6⟩ := hk a s1 t1 h4 b s' h2
  exact ⟨t', bind_ok_iff.2 ⟨a, t1, h3, h5⟩, h6⟩

theorem fwd_mono {r r' : Res α} (h : Fwd Q r r') (hq : ∀ s t, Q s t → Q' s t) : Fwd Q' r r' := by
  intro a s' h'
  obtain ⟨t', h1, h2⟩ := h a s' h'
  exact ⟨t', h1, hq _ _ h2⟩

end

/-- Function bodies before and after: the pass does not enter a branch it puts in the place of its
`If`. -/
def BodyRel (b b' : List Stmt) : Prop := b' = b ∨ (Tidy b ∧ b' = dceBlock b)

/-- Related functions. -/
def FnRel (f g : Fun) : Prop := f.params = g.params ∧ BodyRel f.body g.body

/-- Scopes open in the two runs: call frames `F`, `F'`; block scopes `A` opened in both above the
scopes `S`, `S'`. -/
structure Scopes where
  F : List (VMap × List (List (Sym × Option Value)))
  F' : List (VMap × List (List (Sym × Option Value)))
  S : List (List (Sym × Option Value))
  S' : List (List (Sym × Option Value))
  same : F.isEmpty = F'.isEmpty

/-- States that agree except on the pending names `D`. -/
structure DR (K : Scopes) (A : List (List (Sym × Option Value))) (D : List Sym) (s t : State) :
    Prop where
  frames : s.env.frames = K.F
  frames' : t.env.frames = K.F'
  saves : s.env.saves = A ++ K.S
  saves' : t.env.saves = A ++ K.S'
  cur : ∀ y, y ∉ D → s.env.cur y = t.env.cur y
  curSome : ∀ y, (s.env.cur y).isSome = (t.env.cur y).isSome
  glob : ∀ y, y ∉ D ∨ (s.env.cur y).isSome = true → s.env.globals y = t.env.globals y
  globSome : ∀ y, (s.env.globals y).isSome = (t.env.globals y).isSome
  main : K.F ≠ [] → s.env.mainBlock = t.env.mainBlock
  locals : K.F = [] → s.env.locals = t.env.locals
  out : s.out = t.out
  clos : s.clos = t.clos
  funs : ∀ f, (s.funs f = none ∧ t.funs f = none) ∨
    ∃ a b, s.funs f = some a ∧ t.funs f = some b ∧ FnRel a b

section
variable {K : Scopes} {A : List (List (Sym × Option Value))} {D : List Sym} {s t : State}

theorem DR.lookup (h : DR K A D s t) {y : Sym} (hy : y ∉ D) : s.env.lookup y = t.env.lookup y := by
  rw [lookup_cur, lookup_cur, h.cur y hy, h.glob y (.inl hy)]

theorem DR.lookups (h : DR K A [] s t) : s.env.lookup = t.env.lookup :=
  funext fun _ => h.lookup (by simp)

theorem DR.curEq (h : DR K A [] s t) : s.env.cur = t.env.cur := funext fun y => h.cur y (by simp)

theorem DR.locEq (h : DR K A [] s t) : s.env.locals = t.env.locals := by
  by_cases hF : K.F = []
  · exact h.locals hF
  · have := h.curEq
    have h1 : s.env.frames.isEmpty = false := by
      rw [h.frames]; cases hf : K.F with
      | nil => exact absurd hf hF
      | cons _ _ => rfl
    have h2 : t.env.frames.isEmpty = false := by
      rw [h.frames', ← K.same, ← h.frames]; exact h1
    simpa [Env.cur, h1, h2] using this

theorem DR.mainEq (h : DR K A [] s t) : s.env.mainBlock = t.env.mainBlock := by
  by_cases hF : K.F = []
  · have := h.curEq
    have h1 : s.env.frames.isEmpty = true := by rw [h.frames, hF]; rfl
    have h2 : t.env.frames.isEmpty = true := by
      rw [h.frames', ← K.same, ← h.frames]; exact h1
    simpa [Env.cur, h1, h2] using this
  · exact h.main hF

theorem DR.globEq (h : DR K A [] s t) : s.env.globals = t.env.globals :=
  funext fun y => h.glob y (.inl (by simp))

/-- Agreeing on everything. -/
theorem DR.mk0 (h1 : s.env.frames = K.F) (h2 : t.env.frames = K.F') (h3 : s.env.saves = A ++ K.S)
    (h4 : t.env.saves = A ++ K.S') (h5 : s.env.globals = t.env.globals)
    (h6 : s.env.mainBlock = t.env.mainBlock) (h7 : s.env.locals = t.env.locals)
    (h8 : s.out = t.out) (h9 : s.clos = t.clos)
    (h10 : ∀ f, (s.funs f = none ∧ t.funs f = none) ∨
      ∃ a b, s.funs f = some a ∧ t.funs f = some b ∧ FnRel a b) : DR K A [] s t := by
  have hc : s.env.cur = t.env.cur := by
    unfold Env.cur
    rw [h1, h2, K.same, h6, h7]
  exact ⟨h1, h2, h3, h4, fun y _ => by rw [hc], fun y => by rw [hc], fun y _ => by rw [h5],
    fun y => by rw [h5], fun _ => h6, fun _ => h7, h8, h9, h10⟩

theorem DR.isEmpty (h : DR K A D s t) : s.env.frames.isEmpty = t.env.frames.isEmpty := by
  rw [h.frames, h.frames']; exact K.same

theorem DR.widen (h : DR K A D s t) {D' : List Sym} (hD : ∀ x ∈ D, x ∈ D') : DR K A D' s t :=
  { h with
    cur := fun y hy => h.cur y fun h' => hy (hD y h')
    glob := fun y hy => h.glob y (hy.imp (fun h1 h2 => h1 (hD y h2)) id) }

/-- Assigning the same value on both sides settles the name. -/
theorem DR.assign (h : DR K A D s t) {x : Sym} {v : Value} {e : Env}
    (he : s.env.assign x v = some e) :
    ∃ e', t.env.assign x v = some e' ∧
      DR K A (D.filter (· ≠ x)) { s with env := e } { t with env := e' } := by
  have hE := h.isEmpty
  have hcs := h.curSome x
  have hgs := h.globSome x
  have hD : ∀ {y}, y ∉ D.filter (· ≠ x) → y ≠ x → y ∉ D := by
    intro y hy hyx hyD
    exact hy (List.mem_filter.2 ⟨hyD, by simpa using hyx⟩)
  unfold Env.assign at he ⊢
  by_cases hf : s.env.frames.isEmpty = true
  · have hf' : t.env.frames.isEmpty = true := hE ▸ hf
    have hF : K.F = [] := by rw [← h.frames]; exact List.isEmpty_iff.1 hf
    simp only [Env.cur, hf, hf', if_true] at hcs
    simp only [hf, hf', Bool.not_true, Bool.false_and, Bool.false_eq_true, if_false,
      Bool.true_and] at he ⊢
    have hcur : ∀ y, y ∉ D → s.env.mainBlock y = t.env.mainBlock y := by
      intro y hy; simpa [Env.cur, hf, hf'] using h.cur y hy
    have hcurS : ∀ y, (s.env.mainBlock y).isSome = (t.env.mainBlock y).isSome := by
      intro y; simpa [Env.cur, hf, hf'] using h.curSome y
    have hglob : ∀ y, y ∉ D ∨ (s.env.mainBlock y).isSome = true →
        s.env.globals y = t.env.globals y := by
      intro y hy; apply h.glob y; simpa [Env.cur, hf] using hy
    split at he
    · rename_i hm
      cases he
      rw [if_pos (hcs ▸ hm)]
      refine ⟨_, rfl, ⟨h.frames, h.frames', h.saves, h.saves', ?_, ?_, ?_, h.globSome,
        fun hn => absurd hF hn, h.locals, h.out, h.clos, h.funs⟩⟩
      · intro y hy
        simp only [Env.cur, hf, hf', if_true, VMap.put]
        split
        · rfl
        · rename_i hyx; exact hcur y (hD hy hyx)
      · intro y
        simp only [Env.cur, hf, hf', if_true, VMap.put]
        split
        · rfl
        · exact hcurS y
      · intro y hy
        simp only [Env.cur, hf, if_true, VMap.put] at hy
        by_cases hyx : y = x
        · subst hyx; exact hglob y (.inr hm)
        · simp only [hyx, if_false] at hy
          exact hglob y (hy.imp (fun h => hD h hyx) id)
    · rename_i hm
      split at he
      · rename_i hg
        cases he
        rw [if_neg (by rw [← hcs]; exact hm), if_pos (hgs ▸ hg)]
        refine ⟨_, rfl, ⟨h.frames, h.frames', h.saves, h.saves', ?_, ?_, ?_, ?_,
          fun hn => absurd hF hn, h.locals, h.out, h.clos, h.funs⟩⟩
        · intro y hy
          simp only [Env.cur, hf, hf', if_true]
          by_cases hyx : y = x
          · subst hyx
            have h1 : s.env.mainBlock y = none := by simpa using hm
            have h2 : t.env.mainBlock y = none := by
              have := hcurS y; rw [h1] at this; simpa using this.symm
            rw [h1, h2]
          · exact hcur y (hD hy hyx)
        · intro y; simpa only [Env.cur, hf, hf', if_true] using hcurS y
        · intro y hy
          simp only [Env.cur, hf, if_true] at hy
          simp only [VMap.put]
          split
          · rfl
          · rename_i hyx
            exact hglob y (hy.imp (fun h => hD h hyx) id)
        · intro y
          simp only [VMap.put]
          split
          · rfl
          · exact h.globSome y
      · cases he
  · have hf : s.env.frames.isEmpty = false := by simpa using hf
    have hf' : t.env.frames.isEmpty = false := hE ▸ hf
    have hF : K.F ≠ [] := by
      rw [← h.frames]; intro hn; rw [hn] at hf; cases hf
    simp only [Env.cur, hf, hf', Bool.false_eq_true, if_false] at hcs
    simp only [hf, hf', Bool.not_false, Bool.true_and, Bool.false_and, Bool.false_eq_true,
      if_false] at he ⊢
    have hcur : ∀ y, y ∉ D → s.env.locals y = t.env.locals y := by
      intro y hy; simpa [Env.cur, hf, hf'] using h.cur y hy
    have hcurS : ∀ y, (s.env.locals y).isSome = (t.env.locals y).isSome := by
      intro y; simpa [Env.cur, hf, hf'] using h.curSome y
    have hglob : ∀ y, y ∉ D ∨ (s.env.locals y).isSome = true →
        s.env.globals y = t.env.globals y := by
      intro y hy; apply h.glob y; simpa [Env.cur, hf] using hy
    split at he
    · rename_i hm
      cases he
      rw [if_pos (hcs ▸ hm)]
      refine ⟨_, rfl, ⟨h.frames, h.frames', h.saves, h.saves', ?_, ?_, ?_, h.globSome,
        h.main, fun hn => absurd hn hF, h.out, h.clos, h.funs⟩⟩
      · intro y hy
        simp only [Env.cur, hf, hf', Bool.false_eq_true, if_false, VMap.put]
        split
        · rfl
        · rename_i hyx; exact hcur y (hD hy hyx)
      · intro y
        simp only [Env.cur, hf, hf', Bool.false_eq_true, if_false, VMap.put]
        split
        · rfl
        · exact hcurS y
      · intro y hy
        simp only [Env.cur, hf, Bool.false_eq_true, if_false, VMap.put] at hy
        by_cases hyx : y = x
        · subst hyx; exact hglob y (.inr hm)
        · simp only [hyx, if_false] at hy
          exact hglob y (hy.imp (fun h => hD h hyx) id)
    · rename_i hm
      split at he
      · rename_i hg
        cases he
        rw [if_neg (by rw [← hcs]; exact hm), if_pos (hgs ▸ hg)]
        refine ⟨_, rfl, ⟨h.frames, h.frames', h.saves, h.saves', ?_, ?_, ?_, ?_,
          h.main, fun hn => absurd hn hF, h.out, h.clos, h.funs⟩⟩
        · intro y hy
          simp only [Env.cur, hf, hf', Bool.false_eq_true, if_false]
          by_cases hyx : y = x
          · subst hyx
            have h1 : s.env.locals y = none := by simpa using hm
            have h2 : t.env.locals y = none := by
              have := hcurS y; rw [h1] at this; simpa using this.symm
            rw [h1, h2]
          · exact hcur y (hD hy hyx)
        · intro y; simpa only [Env.cur, hf, hf', Bool.false_eq_true, if_false] using hcurS y
        · intro y hy
          simp only [Env.cur, hf, Bool.false_eq_true, if_false] at hy
          simp only [VMap.put]
          split
          · rfl
          · rename_i hyx
            exact hglob y (hy.imp (fun h => hD h hyx) id)
        · intro y
          simp only [VMap.put]
          split
          · rfl
          · exact h.globSome y
      · cases he

/-- An assignment made in the first run only leaves its name pending. -/
theorem DR.assign1 (h : DR K A D s t) {x : Sym} {v : Value} {e : Env}
    (he : s.env.assign x v = some e) :
    DR K A (x :: D.filter (· ≠ x)) { s with env := e } t := by
  obtain ⟨h1, h2, h3, h4⟩ := assign_cases he
  have hD : ∀ {y}, y ∉ x :: D.filter (· ≠ x) → y ≠ x ∧ y ∉ D := by
    intro y hy
    simp only [List.mem_cons, not_or] at hy
    refine ⟨hy.1, fun hyD => hy.2 (List.mem_filter.2 ⟨hyD, by simpa using hy.1⟩)⟩
  have hloc : K.F = [] → e.locals = s.env.locals := by
    intro hF
    have hf : s.env.frames.isEmpty = true := by rw [h.frames, hF]; rfl
    unfold Env.assign at he
    simp only [hf, Bool.not_true, Bool.false_and, Bool.false_eq_true, if_false, Bool.true_and] at he
    split at he
    · cases he; rfl
    · split at he
      · cases he; rfl
      · cases he
  refine ⟨h1.trans h.frames, h.frames', h2.trans h.saves, h.saves', ?_, ?_, ?_, ?_, ?_, ?_, h.out,
    h.clos, h.funs⟩
  · intro y hy
    obtain ⟨hyx, hyD⟩ := hD hy
    rcases h4 with ⟨hc, _, _⟩ | ⟨hc, _⟩
    · show e.cur y = _
      rw [hc]; simp only [VMap.put, hyx, if_false]; exact h.cur y hyD
    · show e.cur y = _
      rw [hc]; exact h.cur y hyD
  · intro y
    rcases h4 with ⟨hc, hs, _⟩ | ⟨hc, _⟩
    · show (e.cur y).isSome = _
      rw [hc]; simp only [VMap.put]
      split
      · rename_i hyx; subst hyx; rw [← h.curSome, hs]; rfl
      · exact h.curSome y
    · show (e.cur y).isSome = _
      rw [hc]; exact h.curSome y
  · intro y hy
    rcases h4 with ⟨hc, hs, hg⟩ | ⟨hc, hn, hs, hg⟩
    · show e.globals y = _
      rw [hg]
      by_cases hyx : y = x
      · subst hyx; exact h.glob y (.inr hs)
      · apply h.glob y
        rcases hy with hy | hy
        · exact .inl (hD hy).2
        · right
          have hy : (e.cur y).isSome = true := hy
          rw [hc] at hy; simpa [VMap.put, hyx] using hy
    · show e.globals y = _
      rw [hg]
      by_cases hyx : y = x
      · subst hyx
        rcases hy with hy | hy
        · exact absurd rfl (hD hy).1
        · have hy : (e.cur y).isSome = true := hy
          rw [hc, hn] at hy; cases hy
      · simp only [VMap.put, hyx, if_false]
        apply h.glob y
        rcases hy with hy | hy
        · exact .inl (hD hy).2
        · right
          have hy : (e.cur y).isSome = true := hy
          rwa [hc] at hy
  · intro y
    rcases h4 with ⟨_, _, hg⟩ | ⟨_, _, hs, hg⟩
    · show (e.globals y).isSome = _
      rw [hg]; exact h.globSome y
    · show (e.globals y).isSome = _
      rw [hg]; simp only [VMap.put]
      split
      · rename_i hyx; subst hyx; rw [← h.globSome, hs]; rfl
      · exact h.globSome y
  · intro hF
    show e.mainBlock = _
    rw [h3 (by rw [h.frames]; exact hF)]; exact h.main hF
  · intro hF
    show e.locals = _
    rw [hloc hF]; exact h.locals hF

/-- How the scopes change by a declaration. -/
def declScope (x : Sym) (old : Option Value) (A : List (List (Sym × Option Value))) :
    List (List (Sym × Option Value)) :=
  match A with
  | [] => []
  | a :: r => ((x, old) :: a) :: r

/-- A declaration made in both runs, where it makes a block variable in both or a global in both. -/
theorem DR.define (h : DR K A D s t) {x : Sym} (hx : x ∉ D) (v : Value)
    (hA : A ≠ [] ∨ (K.S = [] ∧ K.S' = [])) :
    DR K (declScope x (s.env.cur x) A) D (s.withEnv (·.define x v)) (t.withEnv (·.define x v)) := by
  have hE := h.isEmpty
  have hrec : ∀ old S0, (A ≠ [] ∨ S0 = []) →
      recordSave x old (A ++ S0) = declScope x old A ++ S0 := by
    intro old S0 h'
    cases A with
    | nil => simp at h'; subst h'; rfl
    | cons a r => rfl
  have hA1 : A ≠ [] ∨ K.S = [] := hA.imp id And.left
  have hA2 : A ≠ [] ∨ K.S' = [] := hA.imp id And.right
  have hemp : s.env.saves.isEmpty = t.env.saves.isEmpty := by
    rw [h.saves, h.saves']
    rcases hA with hA | ⟨h1, h2⟩
    · cases A with
      | nil => exact absurd rfl hA
      | cons _ _ => rfl
    · rw [h1, h2]
  have hxy : ∀ {y}, y ∈ D → y ≠ x := fun h h' => hx (h' ▸ h)
  by_cases hf : s.env.frames.isEmpty = true
  · have hf' : t.env.frames.isEmpty = true := hE ▸ hf
    have hF : K.F = [] := by rw [← h.frames]; exact List.isEmpty_iff.1 hf
    have hcur : ∀ y, y ∉ D → s.env.mainBlock y = t.env.mainBlock y := by
      intro y hy; simpa [Env.cur, hf, hf'] using h.cur y hy
    have hcurS : ∀ y, (s.env.mainBlock y).isSome = (t.env.mainBlock y).isSome := by
      intro y; simpa [Env.cur, hf, hf'] using h.curSome y
    have hglob : ∀ y, y ∉ D ∨ (s.env.mainBlock y).isSome = true →
        s.env.globals y = t.env.globals y := by
      intro y hy; apply h.glob y; simpa [Env.cur, hf] using hy
    cases hs : s.env.saves.isEmpty with
    | true =>
      have ht : t.env.saves.isEmpty = true := hemp ▸ hs
      have hA0 : A = [] := by
        have := List.isEmpty_iff.1 hs
        rw [h.saves] at this
        exact (List.append_eq_nil_iff.1 this).1
      subst hA0
      have e1 : s.env.define x v = { s.env with globals := s.env.globals.put x (some v) } := by
        simp [Env.define, hf, hs]
      have e2 : t.env.define x v = { t.env with globals := t.env.globals.put x (some v) } := by
        simp [Env.define, hf', ht]
      simp only [State.withEnv, e1, e2, declScope]
      refine ⟨h.frames, h.frames', h.saves, h.saves', h.cur, h.curSome, ?_, ?_, h.main, h.locals,
        h.out, h.clos, h.funs⟩
      · intro y hy
        simp only [VMap.put]
        split
        · rfl
        · exact h.glob y hy
      · intro y
        simp only [VMap.put]
        split
        · rfl
        · exact h.globSome y
    | false =>
      have ht : t.env.saves.isEmpty = false := hemp ▸ hs
      have e1 : s.env.define x v = { s.env with
          saves := recordSave x (s.env.mainBlock x) s.env.saves,
          mainBlock := s.env.mainBlock.put x (some v) } := by
        simp [Env.define, hf, hs]
      have e2 : t.env.define x v = { t.env with
          saves := recordSave x (t.env.mainBlock x) t.env.saves,
          mainBlock := t.env.mainBlock.put x (some v) } := by
        simp [Env.define, hf', ht]
      have hcx : s.env.cur x = s.env.mainBlock x := by simp [Env.cur, hf]
      simp only [State.withEnv, e1, e2, hcx]
      refine ⟨h.frames, h.frames', ?_, ?_, ?_, ?_, ?_, h.globSome, fun hn => absurd hF hn, h.locals,
        h.out, h.clos, h.funs⟩
      · simp only [h.saves]; exact hrec _ _ hA1
      · simp only [h.saves', ← hcur x hx]; exact hrec _ _ hA2
      · intro y hy
        simp only [Env.cur, hf, hf', if_true, VMap.put]
        split
        · rfl
        · exact hcur y hy
      · intro y
        simp only [Env.cur, hf, hf', if_true, VMap.put]
        split
        · rfl
        · exact hcurS y
      · intro y hy
        simp only [Env.cur, hf, if_true, VMap.put] at hy
        by_cases hyx : y = x
        · subst hyx; exact hglob y (.inl hx)
        · simp only [hyx, if_false] at hy; exact hglob y hy
  · have hf : s.env.frames.isEmpty = false := by simpa using hf
    have hf' : t.env.frames.isEmpty = false := hE ▸ hf
    have hF : K.F ≠ [] := by
      rw [← h.frames]; intro hn; rw [hn] at hf; cases hf
    have hcur : ∀ y, y ∉ D → s.env.locals y = t.env.locals y := by
      intro y hy; simpa [Env.cur, hf, hf'] using h.cur y hy
    have hcurS : ∀ y, (s.env.locals y).isSome = (t.env.locals y).isSome := by
      intro y; simpa [Env.cur, hf, hf'] using h.curSome y
    have hglob : ∀ y, y ∉ D ∨ (s.env.locals y).isSome = true →
        s.env.globals y = t.env.globals y := by
      intro y hy; apply h.glob y; simpa [Env.cur, hf] using hy
    have e1 : s.env.define x v = { s.env with
        saves := recordSave x (s.env.locals x) s.env.saves,
        locals := s.env.locals.put x (some v) } := by
      simp [Env.define, hf]
    have e2 : t.env.define x v = { t.env with
        saves := recordSave x (t.env.locals x) t.env.saves,
        locals := t.env.locals.put x (some v) } := by
      simp [Env.define, hf']
    have hcx : s.env.cur x = s.env.locals x := by simp [Env.cur, hf]
    simp only [State.withEnv, e1, e2, hcx]
    refine ⟨h.frames, h.frames', ?_, ?_, ?_, ?_, ?_, h.globSome, h.main, fun hn => absurd hn hF,
      h.out, h.clos, h.funs⟩
    · simp only [h.saves]; exact hrec _ _ hA1
    · simp only [h.saves', ← hcur x hx]; exact hrec _ _ hA2
    · intro y hy
      simp only [Env.cur, hf, hf', Bool.false_eq_true, if_false, VMap.put]
      split
      · rfl
      · exact hcur y hy
    · intro y
      simp only [Env.cur, hf, hf', Bool.false_eq_true, if_false, VMap.put]
      split
      · rfl
      · exact hcurS y
    · intro y hy
      simp only [Env.cur, hf, Bool.false_eq_true, if_false, VMap.put] at hy
      by_cases hyx : y = x
      · subst hyx; exact hglob y (.inl hx)
      · simp only [hyx, if_false] at hy; exact hglob y hy

end

/-! ## Expressions -/

/-- Related targets of a call. -/
inductive TgtRel : Target → Target → Prop where
  | fn {a b : Fun} : FnRel a b → TgtRel (.fn a) (.fn b)
  | clo (i : Nat) : TgtRel (.clo i) (.clo i)

/-- Calls of related targets agree. -/
def CallsFwd (I : Inst) : Prop :=
  ∀ K A x y vs s t, TgtRel x y → DR K A [] s t →
    Fwd (DR K A []) (I.invoke x vs s) (I.invoke y vs t)

section
variable {K : Scopes} {A : List (List (Sym × Option Value))} {I : Inst}

theorem fwd_evCall (hc : CallsFwd I) (f : Sym) (n : Nat) {fa ga : State → Res (List Value)}
    (ha : ∀ s t, DR K A [] s t → Fwd (DR K A []) (fa s) (ga t)) {s t : State}
    (h : DR K A [] s t) : Fwd (DR K A []) (evCall I f n fa s) (evCall I f n ga t) := by
  unfold evCall
  cases I.P.builtin f with
  | some g => exact fwd_bind (ha s t h) fun vs s t h => fwd_ret _ h
  | none =>
    simp only
    rcases h.funs f with ⟨h1, h2⟩ | ⟨a, b, h1, h2, hab⟩
    · simp only [h1, h2]
      have : closureOf s f = closureOf t f := by unfold closureOf; rw [h.lookups]
      rw [← this]
      cases closureOf s f with
      | none => exact fwd_ret _ h
      | some i => exact fwd_bind (ha s t h) fun vs s t h => hc _ _ _ _ vs s t (.clo i) h
    · simp only [h1, h2, ← hab.1]
      split
      · exact fwd_bind (ha s t h) fun vs s t h => hc _ _ _ _ vs s t (.fn hab) h
      · exact fwd_ret _ h

mutual
theorem fwdE (hc : CallsFwd I) : ∀ (e : Expr) (s t : State), DR K A [] s t →
    Fwd (DR K A []) (evalE I e s) (evalE I e t)
  | .lit l, s, t, h => by simp only [evalE]; exact fwd_ret _ h
  | .var x, s, t, h => by
    simp only [evalE, evVar]
    rw [h.lookups]
    split
    · split
      · exact fwd_ret _ h
      · exact fwd_ret _ h
    · exact fwd_ret _ h
  | .bin op a b, s, t, h => by
    simp only [evalE]
    unfold evBin
    split
    · refine fwd_bind (fwdE hc a s t h) fun v s t h => ?_
      split
      · exact fwd_bind (fwdE hc b s t h) fun w s t h => fwd_ret _ h
      · exact fwd_ret _ h
    · refine fwd_bind (fwdE hc a s t h) fun v s t h => ?_
      split
      · exact fwd_ret _ h
      · exact fwd_bind (fwdE hc b s t h) fun w s t h => fwd_ret _ h
    · exact fwd_bind (fwdE hc a s t h) fun v s t h => fwd_bind (fwdE hc b s t h) fun w s t h =>
        fwd_ret _ h
  | .not a, s, t, h => by
    simp only [evalE]
    exact fwd_bind (fwdE hc a s t h) fun v s t h => fwd_ret _ h
  | .call f args, s, t, h => by
    simp only [evalE]
    exact fwd_evCall hc f _ (fwdEs hc args) h
  | .callv c args, s, t, h => by
    simp only [evalE]
    refine fwd_bind (fwdE hc c s t h) fun v s t h => ?_
    unfold evCallv
    split
    · exact fwd_bind (fwdEs hc args s t h) fun vs s t h => hc _ _ _ _ vs s t (.clo _) h
    · exact fwd_ret _ h
  | .list es, s, t, h => by
    simp only [evalE]
    exact fwd_bind (fwdEs hc es s t h) fun v s t h => fwd_ret _ h
  | .index c i, s, t, h => by
    simp only [evalE]
    exact fwd_bind (fwdE hc c s t h) fun v s t h => fwd_bind (fwdE hc i s t h) fun w s t h =>
      fwd_ret _ h
  | .length c, s, t, h => by
    simp only [evalE]
    exact fwd_bind (fwdE hc c s t h) fun v s t h => fwd_ret _ h
  | .closure ps b, s, t, h => by
    simp only [evalE, evClosure]
    rw [h.clos, h.lookups]
    exact fwd_ret _ { h with clos := rfl }

theorem fwdEs (hc : CallsFwd I) : ∀ (es : List Expr) (s t : State), DR K A [] s t →
    Fwd (DR K A []) (evalEs I es s) (evalEs I es t)
  | [], s, t, h => by simp only [evalEs]; exact fwd_ret _ h
  | e :: es, s, t, h => by
    simp only [evalEs]
    exact fwd_bind (fwdE hc e s t h) fun v s t h => fwd_bind (fwdEs hc es s t h) fun w s t h =>
      fwd_ret _ h
end

mutual
/-- An expression without calls changes nothing and sees the names it reads. -/
theorem analyzable_eval : ∀ (e : Expr) (s t s' : State) (v : Value), analyzable e = true →
    (∀ x ∈ readsE e, s.env.lookup x = t.env.lookup x) → evalE I e s = (.ok v, s') →
    s' = s ∧ evalE I e t = (.ok v, t)
  | .lit l, s, t, s', v, _, _, h => by
    simp only [evalE, Prod.mk.injEq] at h ⊢
    exact ⟨h.2.symm, h.1, trivial⟩
  | .var x, s, t, s', v, _, hr, h => by
    simp only [evalE, evVar] at h ⊢
    rw [← hr x (by simp [readsE])]
    split at h
    · split at h
      · rename_i v' hv hread
        simp only [Prod.mk.injEq] at h
        simp [hv, hread, h.1, h.2.symm]
      · cases h
    · cases h
  | .bin op a b, s, t, s', v, ha, hr, h => by
    simp only [analyzable, Bool.and_eq_true] at ha
    have hra : ∀ x ∈ readsE a, s.env.lookup x = t.env.lookup x := fun x hx => hr x (by simp [readsE, hx])
    have hrb : ∀ x ∈ readsE b, s.env.lookup x = t.env.lookup x := fun x hx => hr x (by simp [readsE, hx])
    have hbo : ∀ v s', boolOut I.P (evalE I b s) = (.ok v, s') →
        s' = s ∧ boolOut I.P (evalE I b t) = (.ok v, t) := by
      intro v s' h
      simp only [boolOut, bind_ok_iff, Prod.mk.injEq] at h
      obtain ⟨w, s1, h1, h2, rfl⟩ := h
      obtain ⟨rfl, h4⟩ := analyzable_eval b s t _ w ha.2 hrb h1
      exact ⟨rfl, by simp [boolOut, h4, Res.bind, h2]⟩
    simp only [evalE] at h ⊢
    unfold evBin at h ⊢
    split at h
    · rw [bind_ok_iff] at h
      obtain ⟨w, s1, h1, h2⟩ := h
      obtain ⟨rfl, h4⟩ := analyzable_eval a s t _ w ha.1 hra h1
      rw [h4]
      simp only [Res.bind]
      split at h2
      · rename_i hw
        rw [if_pos hw]
        exact hbo v s' h2
      · rename_i hw
        rw [if_neg hw]
        simp only [Prod.mk.injEq] at h2
        exact ⟨h2.2.symm, by rw [h2.1]⟩
    · rw [bind_ok_iff] at h
      obtain ⟨w, s1, h1, h2⟩ := h
      obtain ⟨rfl, h4⟩ := analyzable_eval a s t _ w ha.1 hra h1
      rw [h4]
      simp only [Res.bind]
      split at h2
      · rename_i hw
        rw [if_pos hw]
        simp only [Prod.mk.injEq] at h2
        exact ⟨h2.2.symm, by rw [h2.1]⟩
      · rename_i hw
        rw [if_neg hw]
        exact hbo v s' h2
    · rw [bind_ok_iff] at h
      obtain ⟨w, s1, h1, h2⟩ := h
      obtain ⟨rfl, h4⟩ := analyzable_eval a s t _ w ha.1 hra h1
      rw [bind_ok_iff] at h2
      obtain ⟨w', s2, h5, h6⟩ := h2
      obtain ⟨rfl, h7⟩ := analyzable_eval b _ t _ w' ha.2 hrb h5
      rw [lift_ok_iff] at h6
      simp [h4, h7, Res.bind, lift, h6.1, h6.2]
  | .not a, s, t, s', v, ha, hr, h => by
    simp only [evalE, bind_ok_iff, Prod.mk.injEq] at h
    obtain ⟨w, s1, h1, h2, rfl⟩ := h
    obtain ⟨rfl, h4⟩ := analyzable_eval a s t _ w ha hr h1
    simp [evalE, h4, Res.bind, h2]
  | .list es, s, t, s', v, ha, hr, h => by
    simp only [evalE, bind_ok_iff, Prod.mk.injEq] at h
    obtain ⟨w, s1, h1, h2, rfl⟩ := h
    obtain ⟨rfl, h4⟩ := analyzables_eval es s t _ w ha hr h1
    simp [evalE, h4, Res.bind, h2]
  | .index a b, s, t, s', v, ha, hr, h => by
    simp only [analyzable, Bool.and_eq_true] at ha
    simp only [evalE, bind_ok_iff, lift_ok_iff] at h
    obtain ⟨w, s1, h1, w', s2, h5, h6, rfl⟩ := h
    obtain ⟨rfl, h4⟩ := analyzable_eval a s t _ w ha.1 (fun x hx => hr x (by simp [readsE, hx])) h1
    obtain ⟨rfl, h7⟩ := analyzable_eval b _ t _ w' ha.2 (fun x hx => hr x (by simp [readsE, hx])) h5
    simp [evalE, h4, h7, Res.bind, lift, h6]
  | .length a, s, t, s', v, ha, hr, h => by
    simp only [evalE, bind_ok_iff, lift_ok_iff] at h
    obtain ⟨w, s1, h1, h6, rfl⟩ := h
    obtain ⟨rfl, h4⟩ := analyzable_eval a s t _ w ha hr h1
    simp [evalE, h4, Res.bind, lift, h6]
  | .call _ _, _, _, _, _, ha, _, _ => by simp [analyzable] at ha
  | .callv _ _, _, _, _, _, ha, _, _ => by simp [analyzable] at ha
  | .closure _ _, _, _, _, _, ha, _, _ => by simp [analyzable] at ha

theorem analyzables_eval : ∀ (es : List Expr) (s t s' : State) (vs : List Value),
    analyzables es = true → (∀ x ∈ readsEs es, s.env.lookup x = t.env.lookup x) →
    evalEs I es s = (.ok vs, s') → s' = s ∧ evalEs I es t = (.ok vs, t)
  | [], s, t, s', vs, _, _, h => by
    simp only [evalEs, Prod.mk.injEq] at h ⊢
    exact ⟨h.2.symm, h.1, trivial⟩
  | e :: es, s, t, s', vs, ha, hr, h => by
    simp only [analyzables, Bool.and_eq_true] at ha
    simp only [evalEs, bind_ok_iff, Prod.mk.injEq] at h
    obtain ⟨w, s1, h1, w', s2, h5, h6, rfl⟩ := h
    obtain ⟨rfl, h4⟩ := analyzable_eval e s t _ w ha.1 (fun x hx => hr x (by simp [readsEs, hx])) h1
    obtain ⟨rfl, h7⟩ := analyzables_eval es _ t _ w' ha.2 (fun x hx => hr x (by simp [readsEs, hx])) h5
    simp [evalEs, h4, h7, Res.bind, h6]
end

end

end Verif.Lang
