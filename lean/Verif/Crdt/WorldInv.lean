import Verif.Crdt.World
import Mathlib.Data.Set.Finite.Basic
/-!
# Induction principle for reachable worlds

Helper lemmas: what every reachable world satisfies whatever the replicated type is (causal closure of
`seen`, a replica has seen all its own operations), and an induction principle that hides the world.
-/
namespace Verif.Crdt

variable {S Op : Type}

abbrev Iss (S Op : Type) := Ev → Option (Issue S Op)

/-- add one issued operation -/
def Iss.add (iss : Iss S Op) (e : Ev) (i : Issue S Op) : Iss S Op := fun x => if x = e then some i else iss x

@[simp] theorem Iss.add_same (iss : Iss S Op) (e : Ev) (i : Issue S Op) : iss.add e i e = some i := by
  simp [Iss.add]
theorem Iss.add_ne (iss : Iss S Op) {e x : Ev} (i : Issue S Op) (h : x ≠ e) : iss.add e i x = iss x := by
  simp [Iss.add, h]

/-- `seen` is causally closed and refers to issued operations. -/
structure Good (iss : Iss S Op) (c : Copy S) : Prop where
  issued : ∀ e ∈ c.seen, ∃ i, iss e = some i ∧ i.past ⊆ c.seen
  down : ∀ r i j, (⟨r, i⟩ : Ev) ∈ c.seen → j < i → (⟨r, j⟩ : Ev) ∈ c.seen

/-- what holds of every issued operation -/
structure Hist (I : Iss S Op → Copy S → Prop) (J : Rid → S → Prop) (iss : Iss S Op) (e : Ev)
    (i : Issue S Op) : Prop where
  inv : I iss ⟨i.pre, i.past⟩
  good : Good iss ⟨i.pre, i.past⟩
  rid : J e.rid i.pre
  own : ∀ j, (⟨e.rid, j⟩ : Ev) ∈ i.past ↔ j < e.idx

theorem Good.mono {iss : Iss S Op} {c : Copy S} {e : Ev} {i : Issue S Op} (h : Good iss c)
    (he : iss e = none) : Good (iss.add e i) c := by
  refine ⟨fun x hx => ?_, h.down⟩
  obtain ⟨k, hk, hp⟩ := h.issued x hx
  refine ⟨k, ?_, hp⟩
  rw [Iss.add_ne]; exact hk
  rintro rfl; rw [he] at hk; cases hk

theorem Good.not_mem {iss : Iss S Op} {c : Copy S} {e : Ev} (h : Good iss c) (he : iss e = none) :
    e ∉ c.seen := by
  intro hm
  obtain ⟨k, hk, _⟩ := h.issued e hm
  rw [he] at hk; cases hk

theorem Good.union {iss : Iss S Op} {c d : Copy S} {s : S} (hc : Good iss c) (hd : Good iss d) :
    Good iss ⟨s, c.seen ∪ d.seen⟩ := by
  refine ⟨?_, ?_⟩
  · rintro e (h | h)
    · obtain ⟨k, hk, hp⟩ := hc.issued e h
      exact ⟨k, hk, fun x hx => Or.inl (hp hx)⟩
    · obtain ⟨k, hk, hp⟩ := hd.issued e h
      exact ⟨k, hk, fun x hx => Or.inr (hp hx)⟩
  · rintro r i j (h | h) hj
    · exact Or.inl (hc.down r i j h hj)
    · exact Or.inr (hd.down r i j h hj)

/-- Everything about a reachable world, for an invariant `I` of copies and `J` of replica states. -/
structure WInv (T : Rdt S Op) (I : Iss S Op → Copy S → Prop) (J : Rid → S → Prop) (w : World S Op) :
    Prop where
  live : ∀ c, w.Live c → Good w.issue? c ∧ I w.issue? c
  own : ∀ r j, (⟨r, j⟩ : Ev) ∈ (w.node r).seen ↔ j < (w.log r).length
  rid : ∀ r, J r (w.node r).state
  hist : ∀ e i, w.issue? e = some i → Hist I J w.issue? e i

theorem issue?_op (w : World S Op) (r : Rid) (i : Issue S Op) (n p) :
    World.issue? { log := upd w.log r (w.log r ++ [i]), node := n, pool := p } =
      Iss.add w.issue? ⟨r, (w.log r).length⟩ i := by
  funext e
  obtain ⟨er, ei⟩ := e
  simp only [World.issue?, Iss.add]
  by_cases h : er = r
  · subst h
    simp only [upd_same, Ev.mk.injEq, true_and]
    by_cases h2 : ei = (w.log er).length
    · subst h2; simp
    · simp only [h2, if_false]
      rcases Nat.lt_or_ge ei (w.log er).length with h3 | h3
      · rw [List.getElem?_append_left h3]
      · rw [List.getElem?_eq_none h3, List.getElem?_eq_none]
        simp; omega
  · rw [upd_ne _ _ h]
    have : ¬ (⟨er, ei⟩ : Ev) = ⟨r, (w.log r).length⟩ := by
      intro h2; injection h2 with h3; exact h h3
    simp [this]

/-- The induction principle. -/
theorem reach_inv {T : Rdt S Op} (I : Iss S Op → Copy S → Prop) (J : Rid → S → Prop)
    (h0 : ∀ r, I (fun _ => none) ⟨T.init r, ∅⟩)
    (j0 : ∀ r, J r (T.init r))
    (hmono : ∀ (iss : Iss S Op) e i c, (∀ e i, iss e = some i → Hist I J iss e i) → Good iss c →
      iss e = none → I iss c → I (iss.add e i) c)
    (hop : ∀ (iss : Iss S Op) c r o n, (∀ e i, iss e = some i → Hist I J iss e i) → Good iss c →
      (∀ j, (⟨r, j⟩ : Ev) ∈ c.seen ↔ j < n) → (∀ j, n ≤ j → iss ⟨r, j⟩ = none) →
      I iss c → I (iss.add ⟨r, n⟩ ⟨o, c.state, c.seen⟩) c → J r c.state →
      I (iss.add ⟨r, n⟩ ⟨o, c.state, c.seen⟩) ⟨T.apply o c.state, insert ⟨r, n⟩ c.seen⟩ ∧
        J r (T.apply o c.state))
    (hmerge : ∀ (iss : Iss S Op) c d r, (∀ e i, iss e = some i → Hist I J iss e i) → Good iss c →
      Good iss d → I iss c → I iss d → J r c.state →
      I iss ⟨T.merge c.state d.state, c.seen ∪ d.seen⟩ ∧ J r (T.merge c.state d.state))
    {w : World S Op} (hw : Reachable T w) : WInv T I J w := by
  induction hw with
  | start =>
    refine ⟨?_, ?_, fun r => j0 r, ?_⟩
    · rintro c (⟨r, rfl⟩ | h)
      · refine ⟨⟨?_, ?_⟩, ?_⟩
        · intro e he; exact absurd he (Set.notMem_empty _)
        · intro _ _ _ he; exact absurd he (Set.notMem_empty _)
        · exact h0 r
      · exact absurd h (Set.notMem_empty _)
    · intro r j; simp [World.start]
    · intro e i h; simp [World.start, World.issue?] at h
  | @step w w1 _ hs ih =>
    cases hs with
    | send r =>
      have hi : World.issue? { w with pool := insert (w.node r) w.pool } = w.issue? := rfl
      refine ⟨?_, ih.own, ih.rid, ?_⟩
      · rw [hi]
        rintro c (⟨r', rfl⟩ | h)
        · exact ih.live _ (Or.inl ⟨r', rfl⟩)
        · rcases Set.mem_insert_iff.1 h with rfl | h
          · exact ih.live _ (Or.inl ⟨r, rfl⟩)
          · exact ih.live _ (Or.inr h)
      · rw [hi]; exact ih.hist
    | recv r d hd =>
      obtain ⟨g1, i1⟩ := ih.live _ (w.live_node r)
      obtain ⟨g2, i2⟩ := ih.live _ (Or.inr hd)
      obtain ⟨hI, hJ⟩ := hmerge w.issue? _ _ r ih.hist g1 g2 i1 i2 (ih.rid r)
      refine ⟨?_, ?_, ?_, ih.hist⟩
      · show ∀ c, _ → Good w.issue? c ∧ I w.issue? c
        rintro c (⟨r', rfl⟩ | h)
        · by_cases e : r' = r
          · subst e; simp only [upd_same]; exact ⟨g1.union g2, hI⟩
          · simp only [upd_ne _ _ e]; exact ih.live _ (w.live_node r')
        · exact ih.live _ (Or.inr h)
      · intro r' j
        by_cases e : r' = r
        · subst e
          simp only [upd_same, Set.mem_union, ih.own]
          constructor
          · rintro (h | h)
            · exact h
            · obtain ⟨k, hk, _⟩ := g2.issued _ h
              simp only [World.issue?] at hk
              exact (List.getElem?_eq_some_iff.1 hk).1
          · exact Or.inl
        · simp only [upd_ne _ _ e]; exact ih.own r' j
      · intro r'
        by_cases e : r' = r
        · subst e; simp only [upd_same]; exact hJ
        · simp only [upd_ne _ _ e]; exact ih.rid r'
    | op r o =>
      obtain ⟨g1, i1⟩ := ih.live _ (w.live_node r)
      have hnone : w.issue? ⟨r, (w.log r).length⟩ = none := by simp [World.issue?]
      have hnone' : ∀ j, (w.log r).length ≤ j → w.issue? ⟨r, j⟩ = none := by
        intro j hj; simp [World.issue?, hj]
      have hm := hmono w.issue? ⟨r, (w.log r).length⟩ ⟨o, (w.node r).state, (w.node r).seen⟩ _ ih.hist
        g1 hnone i1
      obtain ⟨hI, hJ⟩ := hop w.issue? _ r o _ ih.hist g1 (ih.own r) hnone' i1 hm (ih.rid r)
      have hhist : ∀ e i, (Iss.add w.issue? ⟨r, (w.log r).length⟩
          ⟨o, (w.node r).state, (w.node r).seen⟩) e = some i →
          Hist I J (Iss.add w.issue? ⟨r, (w.log r).length⟩
            ⟨o, (w.node r).state, (w.node r).seen⟩) e i := by
        intro e i h
        by_cases he : e = ⟨r, (w.log r).length⟩
        · subst he
          rw [Iss.add_same] at h
          injection h with h
          subst h
          exact ⟨hm, g1.mono hnone, ih.rid r, ih.own r⟩
        · rw [Iss.add_ne _ _ he] at h
          have H := ih.hist e i h
          exact ⟨hmono _ _ _ _ ih.hist H.good hnone H.inv, H.good.mono hnone, H.rid, H.own⟩
      have hgood : Good (Iss.add w.issue? ⟨r, (w.log r).length⟩
            ⟨o, (w.node r).state, (w.node r).seen⟩)
          ⟨T.apply o (w.node r).state, insert ⟨r, (w.log r).length⟩ (w.node r).seen⟩ := by
        refine ⟨?_, ?_⟩
        · intro e he
          rcases Set.mem_insert_iff.1 he with rfl | he
          · exact ⟨_, Iss.add_same _ _ _, fun x hx => Set.mem_insert_of_mem _ hx⟩
          · obtain ⟨k, hk, hp⟩ := (g1.mono hnone).issued e he
            exact ⟨k, hk, fun x hx => Set.mem_insert_of_mem _ (hp hx)⟩
        · intro r' i j h hj
          rcases Set.mem_insert_iff.1 h with h | h
          · injection h with h1 h2
            subst h1 h2
            exact Set.mem_insert_of_mem _ ((ih.own _ j).2 hj)
          · exact Set.mem_insert_of_mem _ (g1.down r' i j h hj)
      refine ⟨?_, ?_, ?_, ?_⟩
      · rw [issue?_op]
        rintro c (⟨r', rfl⟩ | h)
        · by_cases e : r' = r
          · subst e; simp only [upd_same]; exact ⟨hgood, hI⟩
          · simp only [upd_ne _ _ e]
            obtain ⟨g, i⟩ := ih.live _ (w.live_node r')
            exact ⟨g.mono hnone, hmono _ _ _ _ ih.hist g hnone i⟩
        · obtain ⟨g, i⟩ := ih.live _ (Or.inr h)
          exact ⟨g.mono hnone, hmono _ _ _ _ ih.hist g hnone i⟩
      · intro r' j
        by_cases e : r' = r
        · subst e
          simp only [upd_same, Set.mem_insert_iff, Ev.mk.injEq, true_and, ih.own, List.length_append,
            List.length_cons, List.length_nil]
          omega
        · simp only [upd_ne _ _ e]; exact ih.own r' j
      · intro r'
        by_cases e : r' = r
        · subst e; simp only [upd_same]; exact hJ
        · simp only [upd_ne _ _ e]; exact ih.rid r'
      · rw [issue?_op]; exact hhist

/-- Every copy has received finitely many operations. -/
theorem seen_finite {T : Rdt S Op} {w : World S Op} (h : Reachable T w) :
    ∀ c, w.Live c → c.seen.Finite := by
  induction h with
  | start =>
    rintro c (⟨r, rfl⟩ | h)
    · exact Set.finite_empty
    · exact absurd h (Set.notMem_empty _)
  | @step w w1 _ hs ih =>
    cases hs with
    | send r =>
      rintro c (⟨r', rfl⟩ | h)
      · exact ih _ (w.live_node r')
      · rcases Set.mem_insert_iff.1 h with rfl | h
        · exact ih _ (w.live_node r)
        · exact ih _ (Or.inr h)
    | recv r d hd =>
      rintro c (⟨r', rfl⟩ | h)
      · by_cases e : r' = r
        · subst e; simp only [upd_same]
          exact (ih _ (w.live_node r')).union (ih _ (Or.inr hd))
        · simp only [upd_ne _ _ e]; exact ih _ (w.live_node r')
      · exact ih _ (Or.inr h)
    | op r o =>
      rintro c (⟨r', rfl⟩ | h)
      · by_cases e : r' = r
        · subst e; simp only [upd_same]
          exact (ih _ (w.live_node r')).insert _
        · simp only [upd_ne _ _ e]; exact ih _ (w.live_node r')
      · exact ih _ (Or.inr h)

end Verif.Crdt
