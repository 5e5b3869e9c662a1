import Verif.Sat.CdclInv
/-!
# Unit propagation keeps the watched-literal invariant
-/

namespace Verif.Sat
open Verif.Proof

/-- Every watcher belongs to a clause that watches the literal. -/
structure Wat (cs : List Clause) (W : Lit → List Watcher) : Prop where
  ok : ∀ l, ∀ w ∈ W l, ∃ c, cs[w.clause]? = some c ∧ 2 ≤ c.length ∧ l ∈ c.take 2 ∧ w.blocker ∈ c ∧
    (w.binary = true → ∀ q ∈ c, q = l ∨ q = w.blocker)
  uniq : ∀ l, ((W l).map Watcher.clause).Nodup

/-- The first `m` clauses are watched by their first two literals. -/
def WatO (m : Nat) (cs : List Clause) (W : Lit → List Watcher) : Prop :=
  ∀ ci < m, ∀ c, cs[ci]? = some c → 2 ≤ c.length → ∀ l ∈ c.take 2, ∃ w ∈ W l, w.clause = ci

/-- A watched literal that is false and processed has a true literal of its level or a lower one
beside it, in the first `m` clauses; `ex` names the exceptions. -/
def W1 (m : Nat) (S : Solver) (ex : Nat → Lit → Prop) : Prop :=
  ∀ ci < m, ∀ c, S.clauses[ci]? = some c → 2 ≤ c.length → ∀ f ∈ c.take 2, ¬ ex ci f →
    ∀ i < S.qhead, S.trail[i]? = some f.negated → ∃ t ∈ c, t ∈ S.trail ∧ S.level t.var ≤ S.level f.var

/-- The first `m` clauses are the formula. -/
structure OrigOK (F : List Clause) (m : Nat) (S : Solver) : Prop where
  orig : ∀ c ∈ F, (∀ τ, Clause.holds τ c) ∨ ∃ ci < m, ∃ c', S.clauses[ci]? = some c' ∧ ∀ l ∈ c', l ∈ c
  mle : m ≤ S.clauses.length
  unit : ∀ ci < m, ∀ l, S.clauses[ci]? = some [l] → S.empty = false →
    ∃ i, S.trail[i]? = some l ∧ lv S.lim i = 0
  emp : ∀ ci < m, S.clauses[ci]? = some [] → S.empty = true

/-- What propagation does not change. -/
structure Ext (S S' : Solver) : Prop where
  n : S'.n = S.n
  lim : S'.lim = S.lim
  heap : S'.heap = S.heap
  empty : S'.empty = S.empty
  nOrig : S'.nOrig = S.nOrig
  log : S'.log = S.log
  limit : S'.limit = S.limit
  reduceOn : S'.reduceOn = S.reduceOn
  len : S'.clauses.length = S.clauses.length
  pre : S.trail <+: S'.trail
  why : ∀ v ci, S'.reason v = some ci → S.reason v = some ci ∨ ci < S.clauses.length

theorem Ext.refl (S : Solver) : Ext S S :=
  ⟨rfl, rfl, rfl, rfl, rfl, rfl, rfl, rfl, rfl, List.prefix_refl _, fun _ _ h => .inl h⟩

theorem Ext.trans {A B C : Solver} (h : Ext A B) (k : Ext B C) : Ext A C where
  n := k.n.trans h.n
  lim := k.lim.trans h.lim
  heap := k.heap.trans h.heap
  empty := k.empty.trans h.empty
  nOrig := k.nOrig.trans h.nOrig
  log := k.log.trans h.log
  limit := k.limit.trans h.limit
  reduceOn := k.reduceOn.trans h.reduceOn
  len := k.len.trans h.len
  pre := h.pre.trans k.pre
  why := by
    intro v ci hr
    rcases k.why v ci hr with hr | hr
    · exact h.why v ci hr
    · exact .inr (h.len ▸ hr)

/-- The invariant between two steps of the search. -/
structure Inv (F : List Clause) (m : Nat) (S : Solver) : Prop where
  core : Core F S
  orig : OrigOK F m S
  wat : Wat S.clauses S.watches
  watO : WatO m S.clauses S.watches
  w1 : W1 m S fun _ _ => False

/-- The invariant after a conflict: the watches of literals of the current level may lag. -/
structure Conf (F : List Clause) (m : Nat) (S : Solver) : Prop where
  core : Core F S
  orig : OrigOK F m S
  wat : Wat S.clauses S.watches
  watO : WatO m S.clauses S.watches
  w1 : W1 m S fun _ f => S.level f.var = S.lim.length

theorem Inv.conf {F : List Clause} {m : Nat} {S : Solver} (h : Inv F m S) : Conf F m S :=
  ⟨h.core, h.orig, h.wat, h.watO, fun ci hci c hc h2 f hf _ => h.w1 ci hci c hc h2 f hf (fun e => e)⟩

/-- The invariant of the watcher loop. -/
structure Mid (F : List Clause) (m : Nat) (f : Lit) (S : Solver) (kept todo : List Watcher) : Prop where
  core : Core F S
  orig : OrigOK F m S
  wat : Wat S.clauses (upd S.watches f (kept ++ todo))
  watO : WatO m S.clauses (upd S.watches f (kept ++ todo))
  w1 : W1 m S fun ci l => l = f ∧ ∃ w ∈ todo, w.clause = ci
  fneg : f.negated ∈ S.trail
  flev : S.level f.var = S.lim.length

section
variable {F : List Clause} {m : Nat} {S : Solver}

theorem OrigOK.enqueue (h : OrigOK F m S) (l : Lit) (r : Option Nat) : OrigOK F m (S.enqueue l r) := by
  refine ⟨h.orig, h.mle, ?_, h.emp⟩
  intro ci hci q hq he
  obtain ⟨i, hi, h0⟩ := h.unit ci hci q hq he
  refine ⟨i, ?_, h0⟩
  show (S.trail ++ [l])[i]? = some q
  exact getElem?_snoc.2 (.inl hi)

theorem OrigOK.decide (h : OrigOK F m S) (l : Lit) : OrigOK F m (S.decide l) := by
  refine ⟨h.orig, h.mle, ?_, h.emp⟩
  intro ci hci q hq he
  obtain ⟨i, hi, h0⟩ := h.unit ci hci q hq he
  refine ⟨i, ?_, ?_⟩
  · show (S.trail ++ [l])[i]? = some q
    exact getElem?_snoc.2 (.inl hi)
  · show lv (S.lim ++ [S.trail.length]) i = 0
    rw [lv_append, h0, lv_zero]
    intro x hx
    have := (List.getElem?_eq_some_iff.1 hi).1
    simp at hx; omega

theorem perm_singleton_eq {c : Clause} {l : Lit} (h : ([l] : Clause).Perm c) : c = [l] :=
  (List.singleton_perm.1 h).symm

theorem OrigOK.setClause (h : OrigOK F m S) {ci : Nat} {c c' : Clause} (hc : S.clauses[ci]? = some c)
    (hp : c'.Perm c) : OrigOK F m { S with clauses := S.clauses.set ci c' } := by
  have hlt := (List.getElem?_eq_some_iff.1 hc).1
  refine ⟨?_, ?_, ?_, ?_⟩
  · intro d hd
    rcases h.orig d hd with h1 | ⟨cj, hcj, d', hd', hs⟩
    · exact .inl h1
    · refine .inr ⟨cj, hcj, ?_⟩
      show ∃ c'_1, (S.clauses.set ci c')[cj]? = some c'_1 ∧ _
      by_cases e : ci = cj
      · subst e
        rw [hc] at hd'; cases hd'
        exact ⟨c', List.getElem?_set_self hlt, fun l hl => hs l (hp.mem_iff.1 hl)⟩
      · exact ⟨d', by rw [List.getElem?_set_ne e, hd'], hs⟩
  · show m ≤ (S.clauses.set ci c').length
    rw [List.length_set]; exact h.mle
  · intro cj hcj l hl he
    have hl' : (S.clauses.set ci c')[cj]? = some [l] := hl
    by_cases e : ci = cj
    · subst e
      rw [List.getElem?_set_self hlt] at hl'
      cases hl'
      exact h.unit ci hcj l (by rw [hc, perm_singleton_eq hp]) he
    · rw [List.getElem?_set_ne e] at hl'
      exact h.unit cj hcj l hl' he
  · intro cj hcj hl
    have hl' : (S.clauses.set ci c')[cj]? = some [] := hl
    by_cases e : ci = cj
    · subst e
      rw [List.getElem?_set_self hlt] at hl'
      cases hl'
      exact h.emp ci hcj (by rw [hc, List.nil_perm.1 hp])
    · rw [List.getElem?_set_ne e] at hl'
      exact h.emp cj hcj hl'

theorem OrigOK.setWatches (h : OrigOK F m S) (W : Lit → List Watcher) :
    OrigOK F m { S with watches := W } := ⟨h.orig, h.mle, h.unit, h.emp⟩

theorem W1.enqueue {ex : Nat → Lit → Prop} (hcore : Core F S) (h : W1 m S ex) {l : Lit} {r : Option Nat}
    (hu : S.value l.var = none) : W1 m (S.enqueue l r) ex := by
  have hfresh := hcore.unset.1 hu
  intro ci hci c hc h2 f hf hex i hi ht
  have hi' : i < S.qhead := hi
  have ht' : (S.trail ++ [l])[i]? = some f.negated := ht
  rcases getElem?_snoc.1 ht' with ht' | ⟨e, _⟩
  · obtain ⟨t, t1, t2, t3⟩ := h ci hci c hc h2 f hf hex i hi' ht'
    refine ⟨t, t1, List.mem_append_left _ t2, ?_⟩
    show upd S.level l.var S.lim.length t.var ≤ upd S.level l.var S.lim.length f.var
    rw [upd_ne _ _ (hfresh t t2)]
    have : f.var ≠ l.var := fun e => hfresh f.negated (List.mem_of_getElem? ht') e
    rw [upd_ne _ _ this]
    exact t3
  · have := hcore.qle
    omega

theorem W1.setClause {ex : Nat → Lit → Prop} (h : W1 m S ex) {ci : Nat} {c c' : Clause}
    (hc : S.clauses[ci]? = some c) (hp : c'.Perm c) (h2 : ∀ l ∈ c'.take 2, l ∈ c.take 2) :
    W1 m { S with clauses := S.clauses.set ci c' } ex := by
  have hlt := (List.getElem?_eq_some_iff.1 hc).1
  intro cj hcj d hd hd2 f hf hex i hi ht
  have hd' : (S.clauses.set ci c')[cj]? = some d := hd
  by_cases e : ci = cj
  · subst e
    rw [List.getElem?_set_self hlt] at hd'
    cases hd'
    obtain ⟨t, t1, t2, t3⟩ := h ci hcj c hc (by rw [← hp.length_eq]; exact hd2) f (h2 f hf) hex i hi ht
    exact ⟨t, hp.mem_iff.2 t1, t2, t3⟩
  · rw [List.getElem?_set_ne e] at hd'
    exact h cj hcj d hd' hd2 f hf hex i hi ht

theorem W1.setWatches {ex : Nat → Lit → Prop} (h : W1 m S ex) (W : Lit → List Watcher) :
    W1 m { S with watches := W } ex := h

theorem Wat.setClause {cs : List Clause} {W : Lit → List Watcher} (h : Wat cs W) {ci : Nat} {c c' : Clause}
    (hc : cs[ci]? = some c) (hp : c'.Perm c) (h2 : ∀ l, l ∈ c.take 2 → l ∈ c'.take 2) :
    Wat (cs.set ci c') W := by
  have hlt := (List.getElem?_eq_some_iff.1 hc).1
  refine ⟨?_, h.uniq⟩
  intro l w hw
  obtain ⟨d, d1, d2, d3, d4, d5⟩ := h.ok l w hw
  by_cases e : ci = w.clause
  · rw [← e, hc] at d1
    cases d1
    exact ⟨c', by rw [← e, List.getElem?_set_self hlt], by rw [hp.length_eq]; exact d2, h2 l d3,
      hp.mem_iff.2 d4, fun hb q hq => d5 hb q (hp.mem_iff.1 hq)⟩
  · exact ⟨d, by rw [List.getElem?_set_ne e, d1], d2, d3, d4, d5⟩

theorem WatO.setClause {cs : List Clause} {W : Lit → List Watcher} (h : WatO m cs W) {ci : Nat}
    {c c' : Clause} (hc : cs[ci]? = some c) (hp : c'.Perm c) (h2 : ∀ l, l ∈ c'.take 2 → l ∈ c.take 2) :
    WatO m (cs.set ci c') W := by
  have hlt := (List.getElem?_eq_some_iff.1 hc).1
  intro cj hcj d hd hd2 l hl
  by_cases e : ci = cj
  · subst e
    rw [List.getElem?_set_self hlt] at hd
    cases hd
    exact h ci hcj c hc (by rw [← hp.length_eq]; exact hd2) l (h2 l hl)
  · rw [List.getElem?_set_ne e] at hd
    exact h cj hcj d hd hd2 l hl

/-- Giving a watcher a new blocker. -/
theorem Wat.reblock {cs : List Clause} {W : Lit → List Watcher} {f : Lit} {kept rest : List Watcher}
    {w w' : Watcher} (h : Wat cs (upd W f (kept ++ w :: rest))) (hc : w'.clause = w.clause)
    (hb : w'.binary = false) {c : Clause} (hcl : cs[w.clause]? = some c) (hbl : w'.blocker ∈ c) :
    Wat cs (upd W f (kept ++ w' :: rest)) := by
  have hself := h.ok f
  rw [upd_same] at hself
  refine ⟨?_, ?_⟩
  · intro l x hx
    by_cases e : l = f
    · subst e
      rw [upd_same] at hx
      rcases List.mem_append.1 hx with hx | hx
      · exact hself x (List.mem_append_left _ hx)
      · rcases List.mem_cons.1 hx with rfl | hx
        · obtain ⟨d, d1, d2, d3, d4, d5⟩ := hself w (by simp)
          rw [hcl] at d1; cases d1
          exact ⟨c, by rw [hc, hcl], d2, d3, hbl, by rw [hb]; intro h; cases h⟩
        · exact hself x (List.mem_append_right _ (List.mem_cons_of_mem _ hx))
    · rw [upd_ne _ _ e] at hx
      have := h.ok l x (by rw [upd_ne _ _ e]; exact hx)
      exact this
  · intro l
    have := h.uniq l
    by_cases e : l = f
    · subst e
      rw [upd_same] at this ⊢
      simpa [hc] using this
    · rw [upd_ne _ _ e] at this ⊢
      exact this

theorem WatO.reblock {cs : List Clause} {W : Lit → List Watcher} {f : Lit} {kept rest : List Watcher}
    {w w' : Watcher} (h : WatO m cs (upd W f (kept ++ w :: rest))) (hc : w'.clause = w.clause) :
    WatO m cs (upd W f (kept ++ w' :: rest)) := by
  intro ci hci c hcl h2 l hl
  obtain ⟨x, hx, hxc⟩ := h ci hci c hcl h2 l hl
  by_cases e : l = f
  · subst e
    rw [upd_same] at hx ⊢
    rcases List.mem_append.1 hx with hx | hx
    · exact ⟨x, List.mem_append_left _ hx, hxc⟩
    · rcases List.mem_cons.1 hx with rfl | hx
      · exact ⟨w', by simp, by rw [hc, hxc]⟩
      · exact ⟨x, List.mem_append_right _ (List.mem_cons_of_mem _ hx), hxc⟩
  · rw [upd_ne _ _ e] at hx ⊢
    exact ⟨x, hx, hxc⟩

/-- A watcher whose clause has a true literal needs no exception. -/
theorem W1.drop {f : Lit} {w : Watcher} {rest : List Watcher} (hcore : Core F S)
    (h : W1 m S fun ci l => l = f ∧ ∃ x ∈ w :: rest, x.clause = ci)
    (hflev : S.level f.var = S.lim.length)
    (ht : ∀ c, S.clauses[w.clause]? = some c → ∃ t ∈ c, t ∈ S.trail) :
    W1 m S fun ci l => l = f ∧ ∃ x ∈ rest, x.clause = ci := by
  intro ci hci c hc h2 l hl hex i hi htr
  by_cases e : l = f ∧ w.clause = ci
  · obtain ⟨rfl, rfl⟩ := e
    obtain ⟨t, t1, t2⟩ := ht c hc
    exact ⟨t, t1, t2, by rw [hflev]; exact hcore.level_le t2⟩
  · refine h ci hci c hc h2 l hl ?_ i hi htr
    rintro ⟨e1, x, hx, hxc⟩
    rcases List.mem_cons.1 hx with rfl | hx
    · exact e ⟨e1, hxc⟩
    · exact hex ⟨e1, x, hx, hxc⟩

/-- At the current level every exception is admissible after a conflict. -/
theorem W1.conf {f : Lit} {todo : List Watcher}
    (h : W1 m S fun ci l => l = f ∧ ∃ x ∈ todo, x.clause = ci) (hflev : S.level f.var = S.lim.length) :
    W1 m S fun _ l => S.level l.var = S.lim.length := by
  intro ci hci c hc h2 l hl hex i hi htr
  refine h ci hci c hc h2 l hl ?_ i hi htr
  rintro ⟨rfl, _⟩
  exact hex hflev

theorem frontOther_spec {f : Lit} {c : Clause} (h2 : 2 ≤ c.length) (hf : f ∈ c.take 2) :
    ∃ o rest, frontOther f c = o :: f :: rest ∧ (o :: f :: rest).Perm c ∧
      (∀ l, l ∈ ([o, f] : List Lit) ↔ l ∈ c.take 2) := by
  match c, h2 with
  | a :: b :: rest, _ =>
    simp only [List.take_succ_cons, List.take_zero, List.mem_cons, List.not_mem_nil, or_false] at hf
    show ∃ o tl, (if a = f then b :: a :: rest else a :: b :: rest) = _ ∧ _
    by_cases e : a = f
    · subst e
      rw [if_pos rfl]
      refine ⟨b, rest, rfl, .swap _ _ _, ?_⟩
      intro l; simp [or_comm]
    · rw [if_neg e]
      rcases hf with hf | hf
      · exact absurd hf.symm e
      · subst hf
        exact ⟨a, rest, rfl, .refl _, by intro l; simp⟩

theorem findWatch_some {S : Solver} {pre pre' rest post : List Lit} {lk : Lit}
    (h : findWatch S pre rest = some (pre', lk, post)) :
    pre ++ rest = pre' ++ lk :: post ∧ S.val lk ≠ some false := by
  induction rest generalizing pre with
  | nil => cases h
  | cons l rest ih =>
    unfold findWatch at h
    split at h
    · obtain ⟨h1, h2⟩ := ih h
      exact ⟨by rw [← h1]; simp, h2⟩
    · cases h
      exact ⟨rfl, by assumption⟩

theorem findWatch_none {S : Solver} {pre rest : List Lit} (h : findWatch S pre rest = none) :
    ∀ l ∈ rest, S.val l = some false := by
  induction rest generalizing pre with
  | nil => intro l hl; cases hl
  | cons l rest ih =>
    unfold findWatch at h
    split at h
    · intro q hq
      rcases List.mem_cons.1 hq with rfl | hq
      · assumption
      · exact ih h q hq
    · cases h

theorem swapHead_perm (rest : List Watcher) : (swapHead rest).Perm rest := by
  unfold swapHead
  cases h : rest.getLast? with
  | none => rw [List.getLast?_eq_none_iff.1 h]
  | some x =>
    show (x :: rest.dropLast).Perm rest
    have : rest = rest.dropLast ++ [x] := by
      rw [List.getLast?_eq_some_iff] at h
      obtain ⟨ys, rfl⟩ := h
      simp
    conv => rhs; rw [this]
    exact (List.perm_append_singleton x rest.dropLast).symm

theorem Wat.perm {cs : List Clause} {W : Lit → List Watcher} {f : Lit} {a b : List Watcher}
    (h : Wat cs (upd W f a)) (hp : b.Perm a) : Wat cs (upd W f b) := by
  refine ⟨?_, ?_⟩
  · intro l w hw
    refine h.ok l w ?_
    by_cases e : l = f
    · subst e
      rw [upd_same] at hw ⊢
      exact hp.mem_iff.1 hw
    · rw [upd_ne _ _ e] at hw ⊢
      exact hw
  · intro l
    have := h.uniq l
    by_cases e : l = f
    · subst e
      rw [upd_same] at this ⊢
      exact (hp.map _).nodup_iff.2 this
    · rw [upd_ne _ _ e] at this ⊢
      exact this

theorem WatO.perm {cs : List Clause} {W : Lit → List Watcher} {f : Lit} {a b : List Watcher}
    (h : WatO m cs (upd W f a)) (hp : b.Perm a) : WatO m cs (upd W f b) := by
  intro ci hci c hc h2 l hl
  obtain ⟨w, hw, e⟩ := h ci hci c hc h2 l hl
  refine ⟨w, ?_, e⟩
  by_cases e : l = f
  · subst e
    rw [upd_same] at hw ⊢
    exact hp.mem_iff.2 hw
  · rw [upd_ne _ _ e] at hw ⊢
    exact hw

/-- A false clause with a literal of the current level. -/
structure Falsified (S : Solver) (ci : Nat) : Prop where
  ex : ∃ c, S.clauses[ci]? = some c ∧ (∀ q ∈ c, q.negated ∈ S.trail) ∧
    ∃ q ∈ c, S.level q.var = S.lim.length

theorem unset_of {l : Lit} (h1 : S.val l ≠ some true) (h2 : S.val l ≠ some false) :
    S.value l.var = none := by
  rw [← val_none]
  cases h : S.val l with
  | none => rfl
  | some b => cases b <;> simp_all

theorem Ext.enqueue {l : Lit} {ci : Nat} (h : ci < S.clauses.length) : Ext S (S.enqueue l (some ci)) where
  n := rfl
  lim := rfl
  heap := rfl
  empty := rfl
  nOrig := rfl
  log := rfl
  limit := rfl
  reduceOn := rfl
  len := rfl
  pre := List.prefix_append _ _
  why := by
    intro v cj hr
    have hr' : upd S.reason l.var (some ci) v = some cj := hr
    by_cases e : v = l.var
    · subst e
      rw [upd_same] at hr'
      cases hr'
      exact .inr h
    · rw [upd_ne _ _ e] at hr'
      exact .inl hr'

theorem Ext.setClause (ci : Nat) (c : Clause) : Ext S { S with clauses := S.clauses.set ci c } where
  n := rfl
  lim := rfl
  heap := rfl
  empty := rfl
  nOrig := rfl
  log := rfl
  limit := rfl
  reduceOn := rfl
  len := List.length_set
  pre := List.prefix_refl _
  why := fun _ _ h => .inl h

theorem Ext.setWatches (W : Lit → List Watcher) : Ext S { S with watches := W } where
  n := rfl
  lim := rfl
  heap := rfl
  empty := rfl
  nOrig := rfl
  log := rfl
  limit := rfl
  reduceOn := rfl
  len := rfl
  pre := List.prefix_refl _
  why := fun _ _ h => .inl h

/-- What one visit achieves. -/
def VisitOK (F : List Clause) (m : Nat) (f : Lit) (S : Solver) (kept rest : List Watcher) (w : Watcher) :
    Visit → Prop
  | .keep w' S' => Mid F m f S' (kept ++ [w']) rest ∧ Ext S S' ∧ S'.qhead = S.qhead
  | .move S' => Mid F m f S' kept (swapHead rest) ∧ Ext S S' ∧ S'.qhead = S.qhead
  | .conflict w' S' => Conf F m { S' with watches := upd S'.watches f (kept ++ w' :: rest) } ∧
      Falsified S' w.clause ∧ Ext S S'
  | .panic => False

theorem Mid.advance {f : Lit} {kept rest : List Watcher} {w : Watcher} (h : Mid F m f S kept (w :: rest))
    (ht : ∀ c, S.clauses[w.clause]? = some c → ∃ t ∈ c, t ∈ S.trail) :
    Mid F m f S (kept ++ [w]) rest where
  core := h.core
  orig := h.orig
  wat := by rw [List.append_assoc]; exact h.wat
  watO := by rw [List.append_assoc]; exact h.watO
  w1 := h.w1.drop h.core h.flev ht
  fneg := h.fneg
  flev := h.flev

theorem Mid.enqueue {f : Lit} {kept todo : List Watcher} (h : Mid F m f S kept todo) {l : Lit} {ci : Nat}
    (hu : S.value l.var = none)
    (hc : ∃ c, S.clauses[ci]? = some c ∧ l ∈ c ∧ ∀ q ∈ c, q ≠ l → q.negated ∈ S.trail) :
    Mid F m f (S.enqueue l (some ci)) kept todo where
  core := by
    obtain ⟨c, hc1, hc2, _⟩ := id hc
    exact h.core.enqueue hu (h.core.clsR c (List.mem_of_getElem? hc1) l hc2) hc
  orig := h.orig.enqueue l _
  wat := h.wat
  watO := h.watO
  w1 := h.w1.enqueue h.core hu
  fneg := List.mem_append_left _ h.fneg
  flev := by
    show upd S.level l.var S.lim.length f.var = S.lim.length
    have hne : f.var ≠ l.var := fun e => h.core.unset.1 hu _ h.fneg e
    rw [upd_ne _ _ hne]
    exact h.flev

theorem visit_ok {f : Lit} {kept rest : List Watcher} {w : Watcher} (h : Mid F m f S kept (w :: rest)) :
    VisitOK F m f S kept rest w (visit S f w) := by
  have hw := h.wat.ok f w (by rw [upd_same]; simp)
  obtain ⟨c, hc, hlen, hf2, hbl, hbin⟩ := hw
  have hlt := (List.getElem?_eq_some_iff.1 hc).1
  have hfc : f ∈ c := List.mem_of_mem_take hf2
  unfold visit
  by_cases hbt : S.val w.blocker = some true
  · rw [if_pos hbt]
    refine ⟨h.advance ?_, Ext.refl _, rfl⟩
    intro d hd
    rw [hc] at hd; cases hd
    exact ⟨_, hbl, (h.core.val_true _).1 hbt⟩
  rw [if_neg hbt]
  by_cases hb : w.binary = true
  · rw [if_pos hb]
    by_cases hbf : S.val w.blocker = some false
    · rw [if_pos hbf]
      refine ⟨⟨h.core.setWatches _, h.orig.setWatches _, h.wat, h.watO, h.w1.conf h.flev⟩, ⟨c, hc, ?_, f, hfc, h.flev⟩,
        Ext.refl _⟩
      intro q hq
      rcases hbin hb q hq with rfl | rfl
      · exact h.fneg
      · exact (h.core.val_false _).1 hbf
    · rw [if_neg hbf]
      have hu := unset_of hbt hbf
      have hreason : ∃ c, S.clauses[w.clause]? = some c ∧ w.blocker ∈ c ∧
          ∀ q ∈ c, q ≠ w.blocker → q.negated ∈ S.trail := by
        refine ⟨c, hc, hbl, ?_⟩
        intro q hq hne
        rcases hbin hb q hq with rfl | rfl
        · exact h.fneg
        · exact absurd rfl hne
      refine ⟨(h.enqueue hu hreason).advance ?_, Ext.enqueue hlt, rfl⟩
      intro d hd
      have hd' : S.clauses[w.clause]? = some d := hd
      rw [hc] at hd'; cases hd'
      exact ⟨_, hbl, List.mem_append_right _ (by simp)⟩
  rw [if_neg hb]
  have hbF : w.binary = false := by simpa using hb
  obtain ⟨o, tl, hfo, hperm, hslots⟩ := frontOther_spec hlen hf2
  rw [hc, Option.map_some, hfo]
  simp only
  have hoc : o ∈ c := hperm.mem_iff.1 (by simp)
  have hnd : (o :: f :: tl).Nodup := hperm.nodup_iff.2 (h.core.clsN c (List.mem_of_getElem? hc))
  have hof : o ≠ f := by
    intro e; subst e
    simp at hnd
  -- the state with the two watched literals in order
  have hcore1 := h.core.setClause hc hperm
  have hset : (S.clauses.set w.clause (o :: f :: tl))[w.clause]? = some (o :: f :: tl) :=
    List.getElem?_set_self hlt
  have hmid1 : Mid F m f { S with clauses := S.clauses.set w.clause (o :: f :: tl) } kept
      ({ w with blocker := o } :: rest) := by
    refine ⟨hcore1, h.orig.setClause hc hperm, ?_, ?_, ?_, h.fneg, h.flev⟩
    · have := h.wat.setClause hc hperm (fun l hl => (by simpa using (hslots l).2 hl))
      exact this.reblock rfl hbF hset (by simp)
    · have := h.watO.setClause hc hperm (fun l hl => (hslots l).1 (by simpa using hl))
      exact this.reblock rfl
    · have := h.w1.setClause hc hperm (fun l hl => (hslots l).1 (by simpa using hl))
      intro ci hci d hd h2 l hl hex
      refine this ci hci d hd h2 l hl ?_
      rintro ⟨e1, x, hx, hxc⟩
      refine hex ⟨e1, ?_⟩
      rcases List.mem_cons.1 hx with rfl | hx
      · exact ⟨_, List.mem_cons_self, hxc⟩
      · exact ⟨x, List.mem_cons_of_mem _ hx, hxc⟩
  by_cases hot : S.val o = some true
  · rw [if_pos hot]
    refine ⟨hmid1.advance ?_, Ext.setClause _ _, rfl⟩
    intro d hd
    have hd' : (S.clauses.set w.clause (o :: f :: tl))[w.clause]? = some d := hd
    rw [hset] at hd'; cases hd'
    exact ⟨o, by simp, (h.core.val_true o).1 hot⟩
  rw [if_neg hot]
  cases hfw : findWatch S [] tl with
  | some x =>
    obtain ⟨pre, lk, post⟩ := x
    simp only
    obtain ⟨hsplit, hlk⟩ := findWatch_some hfw
    rw [List.nil_append] at hsplit
    subst hsplit
    have hlkf : lk ≠ f := by
      rintro rfl
      exact hlk ((h.core.val_false _).2 h.fneg)
    have hlko : lk ≠ o := by
      rintro rfl
      simp at hnd
    have hperm2 : (o :: lk :: (pre ++ f :: post)).Perm c := by
      refine List.Perm.trans ?_ hperm
      refine List.Perm.cons o ?_
      refine (List.perm_middle.cons lk).trans ?_
      refine (List.Perm.swap f lk (pre ++ post)).trans ?_
      exact (List.perm_middle.symm).cons f
    have hset2 : (S.clauses.set w.clause (o :: lk :: (pre ++ f :: post)))[w.clause]? =
        some (o :: lk :: (pre ++ f :: post)) := List.getElem?_set_self hlt
    have huf := h.wat.uniq f
    rw [upd_same] at huf
    have hnot : ∀ x ∈ kept ++ rest, x.clause ≠ w.clause := by
      intro x hx e
      rw [((List.perm_middle (a := w) (l₁ := kept) (l₂ := rest)).map Watcher.clause).nodup_iff, List.map_cons,
        List.nodup_cons] at huf
      apply huf.1
      rw [← e]
      exact List.mem_map_of_mem hx
    have htwo : ∀ {l x}, x ∈ (upd S.watches f (kept ++ w :: rest)) l → x.clause = w.clause →
        l = o ∨ l = f := by
      intro l x hx e
      obtain ⟨d, d1, _, d3, _, _⟩ := h.wat.ok l x hx
      rw [e, hc] at d1; cases d1
      simpa using (hslots l).2 d3
    refine ⟨⟨(h.core.setClause hc hperm2).setWatches _, (h.orig.setClause hc hperm2).setWatches _, ?_, ?_, ?_, h.fneg,
      h.flev⟩, (Ext.setClause _ _).trans (Ext.setWatches _), rfl⟩
    · -- every watcher is where it should be
      refine Wat.perm (a := kept ++ rest) ?_ ((swapHead_perm rest).append_left kept)
      refine ⟨?_, ?_⟩
      · intro l x hx
        show ∃ d, (S.clauses.set w.clause (o :: lk :: (pre ++ f :: post)))[x.clause]? = some d ∧ _
        by_cases e : l = f
        · subst e
          rw [upd_same] at hx
          obtain ⟨d, d1, d2⟩ := h.wat.ok l x (by
            rw [upd_same]
            rcases List.mem_append.1 hx with hx | hx
            · exact List.mem_append_left _ hx
            · exact List.mem_append_right _ (List.mem_cons_of_mem _ hx))
          exact ⟨d, by rw [List.getElem?_set_ne (fun e => hnot x hx e.symm), d1], d2⟩
        · rw [upd_ne _ _ e] at hx
          by_cases el : l = lk
          · subst el
            have hx : x ∈ upd S.watches l (S.watches l ++ [⟨w.clause, o, (o :: f :: (pre ++ l :: post)).length == 2⟩]) l := hx
            rw [upd_same] at hx
            rcases List.mem_append.1 hx with hx | hx
            · have hx' : x ∈ (upd S.watches f (kept ++ w :: rest)) l := by rw [upd_ne _ _ e]; exact hx
              have hxc : w.clause ≠ x.clause := by
                intro ec
                rcases htwo hx' ec.symm with h' | h'
                · exact hlko h'
                · exact hlkf h'
              obtain ⟨d, d1, d2⟩ := h.wat.ok l x hx'
              exact ⟨d, by rw [List.getElem?_set_ne hxc, d1], d2⟩
            · simp only [List.mem_singleton] at hx
              subst hx
              refine ⟨_, hset2, by simp, by simp, by simp, ?_⟩
              intro hb2
              simp at hb2
          · have hx2 : x ∈ S.watches l := by
              have : x ∈ upd S.watches lk (S.watches lk ++ [⟨w.clause, o, (o :: f :: (pre ++ lk :: post)).length == 2⟩]) l := hx
              rwa [upd_ne _ _ el] at this
            have hx' : x ∈ (upd S.watches f (kept ++ w :: rest)) l := by rw [upd_ne _ _ e]; exact hx2
            obtain ⟨d, d1, d2, d3, d4, d5⟩ := h.wat.ok l x hx'
            by_cases ec : w.clause = x.clause
            · rcases htwo hx' ec.symm with h' | h'
              · subst h'
                rw [← ec, hc] at d1; cases d1
                refine ⟨_, by rw [← ec]; exact hset2, by simp, by simp, hperm2.mem_iff.2 d4, ?_⟩
                intro hb q hq
                exact d5 hb q (hperm2.mem_iff.1 hq)
              · exact absurd h' e
            · exact ⟨d, by rw [List.getElem?_set_ne ec, d1], d2, d3, d4, d5⟩
      · intro l
        by_cases e : l = f
        · subst e
          rw [upd_same]
          rw [((List.perm_middle (a := w) (l₁ := kept) (l₂ := rest)).map Watcher.clause).nodup_iff, List.map_cons,
            List.nodup_cons] at huf
          exact huf.2
        · rw [upd_ne _ _ e]
          have hul := h.wat.uniq l
          rw [upd_ne _ _ e] at hul
          show ((upd S.watches lk (S.watches lk ++ [⟨w.clause, o, (o :: f :: (pre ++ lk :: post)).length == 2⟩]) l).map _).Nodup
          by_cases el : l = lk
          · subst el
            rw [upd_same, List.map_append, List.nodup_append]
            refine ⟨hul, by simp, ?_⟩
            intro a ha b hb eab
            subst eab
            simp only [List.map_cons, List.map_nil, List.mem_singleton] at hb
            obtain ⟨x, hx, rfl⟩ := List.mem_map.1 ha
            have hx' : x ∈ (upd S.watches f (kept ++ w :: rest)) l := by rw [upd_ne _ _ e]; exact hx
            rcases htwo hx' hb with h' | h'
            · exact hlko h'
            · exact hlkf h'
          · rw [upd_ne _ _ el]
            exact hul
    · -- every original clause is watched
      refine WatO.perm (a := kept ++ rest) ?_ ((swapHead_perm rest).append_left kept)
      intro ci hci d hd h2 l hl
      have hd' : (S.clauses.set w.clause (o :: lk :: (pre ++ f :: post)))[ci]? = some d := hd
      show ∃ x ∈ upd (upd S.watches lk (S.watches lk ++ [⟨w.clause, o, (o :: f :: (pre ++ lk :: post)).length == 2⟩])) f
        (kept ++ rest) l, _
      have hkeep : ∀ x ∈ (upd S.watches f (kept ++ w :: rest)) l, (l = f → x.clause ≠ w.clause) →
          x ∈ upd (upd S.watches lk (S.watches lk ++ [⟨w.clause, o, (o :: f :: (pre ++ lk :: post)).length == 2⟩])) f
            (kept ++ rest) l := by
        intro x hx hne
        by_cases e : l = f
        · subst e
          rw [upd_same] at hx ⊢
          rcases List.mem_append.1 hx with hx | hx
          · exact List.mem_append_left _ hx
          · rcases List.mem_cons.1 hx with rfl | hx
            · exact absurd rfl (hne rfl)
            · exact List.mem_append_right _ hx
        · rw [upd_ne _ _ e] at hx ⊢
          by_cases el : l = lk
          · subst el
            rw [upd_same]
            exact List.mem_append_left _ hx
          · rw [upd_ne _ _ el]
            exact hx
      by_cases e : w.clause = ci
      · subst e
        rw [hset2] at hd'
        cases hd'
        simp only [List.take_succ_cons, List.take_zero, List.mem_cons, List.not_mem_nil, or_false] at hl
        rcases hl with rfl | rfl
        · obtain ⟨x, hx, hxc⟩ := h.watO w.clause hci c hc hlen l ((hslots l).1 (by simp))
          exact ⟨x, hkeep x hx (fun e => absurd e hof), hxc⟩
        · refine ⟨⟨w.clause, o, (o :: f :: (pre ++ l :: post)).length == 2⟩, ?_, rfl⟩
          rw [upd_ne _ _ hlkf, upd_same]
          exact List.mem_append_right _ (by simp)
      · rw [List.getElem?_set_ne e] at hd'
        obtain ⟨x, hx, hxc⟩ := h.watO ci hci d hd' h2 l hl
        exact ⟨x, hkeep x hx (fun _ e' => e (e'.symm.trans hxc)), hxc⟩
    · -- watched false literals
      intro ci hci d hd h2 l hl hex i hi htr
      have hd' : (S.clauses.set w.clause (o :: lk :: (pre ++ f :: post)))[ci]? = some d := hd
      by_cases e : w.clause = ci
      · subst e
        rw [hset2] at hd'
        cases hd'
        simp only [List.take_succ_cons, List.take_zero, List.mem_cons, List.not_mem_nil, or_false] at hl
        rcases hl with rfl | rfl
        · obtain ⟨t, t1, t2, t3⟩ := h.w1 w.clause hci c hc hlen l ((hslots l).1 (by simp))
            (fun e => hof e.1) i hi htr
          exact ⟨t, hperm2.mem_iff.2 t1, t2, t3⟩
        · exact absurd ((h.core.val_false _).2 (List.mem_of_getElem? htr)) hlk
      · rw [List.getElem?_set_ne e] at hd'
        refine h.w1 ci hci d hd' h2 l hl ?_ i hi htr
        rintro ⟨e1, x, hx, hxc⟩
        rcases List.mem_cons.1 hx with rfl | hx
        · exact e hxc
        · exact hex ⟨e1, x, (swapHead_perm rest).mem_iff.2 hx, hxc⟩
  | none =>
    simp only
    have hrest := findWatch_none hfw
    have hothers : ∀ q ∈ o :: f :: tl, q ≠ o → q.negated ∈ S.trail := by
      intro q hq hne
      rcases List.mem_cons.1 hq with rfl | hq
      · exact absurd rfl hne
      · rcases List.mem_cons.1 hq with rfl | hq
        · exact h.fneg
        · exact (h.core.val_false q).1 (hrest q hq)
    by_cases hof' : S.val o = some false
    · rw [if_pos hof']
      refine ⟨⟨hcore1.setWatches _, hmid1.orig.setWatches _, hmid1.wat, hmid1.watO, hmid1.w1.conf hmid1.flev⟩,
        ⟨_, hset, ?_, f, by simp, h.flev⟩, Ext.setClause _ _⟩
      intro q hq
      by_cases e : q = o
      · subst e; exact (h.core.val_false q).1 hof'
      · exact hothers q hq e
    · rw [if_neg hof']
      have hu := unset_of hot hof'
      have hlt' : w.clause < (S.clauses.set w.clause (o :: f :: tl)).length := by
        rw [List.length_set]; exact hlt
      refine ⟨(hmid1.enqueue (l := o) (ci := w.clause) hu ⟨_, hset, by simp, hothers⟩).advance ?_,
        (Ext.setClause _ _).trans (Ext.enqueue hlt'), rfl⟩
      intro d hd
      have hd' : (S.clauses.set w.clause (o :: f :: tl))[w.clause]? = some d := hd
      rw [hset] at hd'; cases hd'
      exact ⟨o, by simp, List.mem_append_right _ (by simp)⟩

/-- What a propagation achieves. -/
def PropOK (F : List Clause) (m : Nat) (S : Solver) : Prop1 × Solver → Prop
  | (.done, S') => Inv F m S' ∧ Ext S S'
  | (.conflict ci, S') => Conf F m S' ∧ Falsified S' ci ∧ Ext S S'
  | (.panic, _) => False

theorem visitAll_ok {f : Lit} {k : Nat} {kept todo : List Watcher} (h : Mid F m f S kept todo)
    (hk : todo.length ≤ k) :
    PropOK F m S (visitAll f k S kept todo) ∧
      ((visitAll f k S kept todo).1 = .done → (visitAll f k S kept todo).2.qhead = S.qhead) := by
  induction k generalizing S kept todo with
  | zero =>
    have : todo = [] := List.length_eq_zero_iff.1 (by omega)
    subst this
    have hw := h.wat
    have hwO := h.watO
    rw [List.append_nil] at hw hwO
    refine ⟨⟨⟨h.core.setWatches _, h.orig.setWatches _, hw, hwO, ?_⟩, Ext.setWatches _⟩, fun _ => rfl⟩
    intro ci hci c hc h2 l hl _
    refine h.w1 ci hci c hc h2 l hl ?_
    rintro ⟨_, x, hx, _⟩
    cases hx
  | succ k ih =>
    cases todo with
    | nil =>
      have hw := h.wat
      have hwO := h.watO
      rw [List.append_nil] at hw hwO
      refine ⟨⟨⟨h.core.setWatches _, h.orig.setWatches _, hw, hwO, ?_⟩, Ext.setWatches _⟩, fun _ => rfl⟩
      intro ci hci c hc h2 l hl _
      refine h.w1 ci hci c hc h2 l hl ?_
      rintro ⟨_, x, hx, _⟩
      cases hx
    | cons w rest =>
      have hv := visit_ok h
      rw [visitAll]
      cases hvis : visit S f w with
      | keep w' S' =>
        rw [hvis] at hv
        obtain ⟨hm, he, hq⟩ := hv
        obtain ⟨h1, h2⟩ := ih hm (by simp at hk; omega)
        refine ⟨?_, fun hd => (h2 hd).trans hq⟩
        revert h1
        simp only
        rcases visitAll f k S' (kept ++ [w']) rest with ⟨r, S''⟩
        cases r with
        | done => exact fun h1 => ⟨h1.1, he.trans h1.2⟩
        | conflict ci => exact fun h1 => ⟨h1.1, h1.2.1, he.trans h1.2.2⟩
        | panic => exact fun h1 => h1
      | move S' =>
        rw [hvis] at hv
        obtain ⟨hm, he, hq⟩ := hv
        obtain ⟨h1, h2⟩ := ih hm (by rw [(swapHead_perm rest).length_eq]; simp at hk; omega)
        refine ⟨?_, fun hd => (h2 hd).trans hq⟩
        revert h1
        simp only
        rcases visitAll f k S' kept (swapHead rest) with ⟨r, S''⟩
        cases r with
        | done => exact fun h1 => ⟨h1.1, he.trans h1.2⟩
        | conflict ci => exact fun h1 => ⟨h1.1, h1.2.1, he.trans h1.2.2⟩
        | panic => exact fun h1 => h1
      | conflict w' S' =>
        rw [hvis] at hv
        obtain ⟨h1, h2, h3⟩ := hv
        refine ⟨⟨h1, ⟨h2.ex⟩, h3.trans (Ext.setWatches _)⟩, fun h => ?_⟩
        cases h
      | panic =>
        rw [hvis] at hv
        exact hv.elim

theorem upd_upd_self {α β : Type} [DecidableEq α] (f : α → β) (a : α) (b : β) :
    upd (upd f a b) a (f a) = f := by
  funext x
  by_cases e : x = a
  · subst e; rw [upd_same]
  · rw [upd_ne _ _ e, upd_ne _ _ e]

theorem Core.trail_le (h : Core F S) : S.trail.length ≤ S.n := by
  have := List.Nodup.length_le_of_subset (l₁ := S.trail.map Lit.var) (l₂ := List.range S.n) h.nodup (by
    intro v hv
    obtain ⟨l, hl, rfl⟩ := List.mem_map.1 hv
    exact List.mem_range.2 (h.rng l hl))
  simpa using this

theorem propLoop_ok {k : Nat} (h : Inv F m S) (hk : S.n < k + S.qhead) :
    PropOK F m S (propLoop k S) ∧
      ((propLoop k S).1 = .done → (propLoop k S).2.qhead = (propLoop k S).2.trail.length) := by
  induction k generalizing S with
  | zero =>
    have := h.core.qle
    have := h.core.trail_le
    omega
  | succ k ih =>
    unfold propLoop
    cases hp : S.trail[S.qhead]? with
    | none =>
      refine ⟨⟨h, Ext.refl _⟩, fun _ => ?_⟩
      have := h.core.qle
      simp at hp
      show S.qhead = S.trail.length
      omega
    | some p =>
      simp only
      have hqlt := (List.getElem?_eq_some_iff.1 hp).1
      have hmid : Mid F m p.negated
          { S with qhead := S.qhead + 1, watches := upd S.watches p.negated [] } [] (S.watches p.negated) := by
        refine ⟨?_, ?_, ?_, ?_, ?_, ?_, ?_⟩
        · have hc := h.core
          exact
            { nodup := hc.nodup, val := hc.val, rng := hc.rng, limS := hc.limS, limB := hc.limB, lev := hc.lev,
              qle := hqlt, limQ := fun x hx => Nat.le_succ_of_le (hc.limQ x hx), whyN := hc.whyN, whyC := hc.whyC,
              zeroU := hc.zeroU, clsU := hc.clsU, clsR := hc.clsR, clsN := hc.clsN, clsT := hc.clsT, logU := hc.logU, logR := hc.logR, empU := hc.empU,
              heapO := hc.heapO, heapR := hc.heapR }
        · exact ⟨h.orig.orig, h.orig.mle, h.orig.unit, h.orig.emp⟩
        · rw [List.nil_append]
          show Wat S.clauses (upd (upd S.watches p.negated []) p.negated (S.watches p.negated))
          rw [upd_upd_self]
          exact h.wat
        · rw [List.nil_append]
          show WatO m S.clauses (upd (upd S.watches p.negated []) p.negated (S.watches p.negated))
          rw [upd_upd_self]
          exact h.watO
        · intro ci hci c hc h2 l hl hex i hi htr
          have hi' : i < S.qhead + 1 := hi
          have htr' : S.trail[i]? = some l.negated := htr
          by_cases e : i = S.qhead
          · subst e
            rw [hp] at htr'
            have hpl : p = l.negated := Option.some.inj htr'
            subst hpl
            exact absurd ⟨(Lit.negated_negated l).symm, by
              rw [Lit.negated_negated]; exact h.watO ci hci c hc h2 l hl⟩ hex
          · exact h.w1 ci hci c hc h2 l hl (fun e => e) i (by omega) htr'
        · rw [Lit.negated_negated]; exact List.mem_of_getElem? hp
        · exact h.core.level_pending (l := p) hp (Nat.le_refl _)
      obtain ⟨h1, h2⟩ := visitAll_ok hmid (Nat.le_refl _)
      have hext : Ext S { S with qhead := S.qhead + 1, watches := upd S.watches p.negated [] } :=
        ⟨rfl, rfl, rfl, rfl, rfl, rfl, rfl, rfl, rfl, List.prefix_refl _, fun _ _ h => .inl h⟩
      revert h1 h2
      rcases visitAll p.negated (S.watches p.negated).length
          { S with qhead := S.qhead + 1, watches := upd S.watches p.negated [] } [] (S.watches p.negated) with ⟨r, S'⟩
      cases r with
      | done =>
        intro h1 h2
        simp only
        obtain ⟨hi, he⟩ := h1
        have hq : S'.qhead = S.qhead + 1 := h2 rfl
        have hn : S'.n = S.n := he.n
        obtain ⟨g1, g2⟩ := ih hi (by omega)
        refine ⟨?_, g2⟩
        revert g1
        rcases propLoop k S' with ⟨r, S''⟩
        cases r with
        | done => exact fun g1 => ⟨g1.1, hext.trans (he.trans g1.2)⟩
        | conflict ci => exact fun g1 => ⟨g1.1, g1.2.1, hext.trans (he.trans g1.2.2)⟩
        | panic => exact fun g1 => g1
      | conflict ci =>
        intro h1 _
        exact ⟨⟨h1.1, h1.2.1, hext.trans h1.2.2⟩, fun e => by cases e⟩
      | panic =>
        intro h1 _
        exact h1.elim

theorem propagate_ok (h : Inv F m S) : PropOK F m S S.propagate :=
  (propLoop_ok h (by omega)).1

theorem propagate_fix (h : Inv F m S) {S' : Solver} (hp : S.propagate = (.done, S')) :
    S'.qhead = S'.trail.length := by
  have := (propLoop_ok (k := S.n + 1) h (by omega)).2
  unfold Solver.propagate at hp
  rw [hp] at this
  exact this rfl

end

end Verif.Sat
