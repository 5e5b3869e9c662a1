import Verif.Sat.Cdcl
import Verif.Proof.RupLemmas
/-!
# What unit propagation alone can see

Sets of literals closed under unit propagation and free of conflicts. Reasoning about them instead of
about models of the formula gives, besides soundness, that every clause the solver logs is found by
unit propagation, which is what the certificate checker looks for.
-/

namespace Verif.Sat
open Verif.Proof

/-- `c` holds in every model of `F`. -/
def Entails (F : List Clause) (c : Clause) : Prop := ∀ τ, Models τ F → Clause.holds τ c

/-- A consistent set of literals, closed under unit propagation in `D` without conflict. -/
structure World (D : List Clause) (P : Lit → Prop) : Prop where
  con : ∀ l, P l → ¬ P l.negated
  unit : ∀ c ∈ D, ∀ u ∈ c, (∀ q ∈ c, q ≠ u → P q.negated) → P u
  conf : ∀ c ∈ D, ¬ ∀ q ∈ c, P q.negated

/-- `c` propagates in every world of `D` as if it were a clause of `D`. -/
structure Acts (D : List Clause) (c : Clause) : Prop where
  unit : ∀ P, World D P → ∀ u ∈ c, (∀ q ∈ c, q ≠ u → P q.negated) → P u
  conf : ∀ P, World D P → ¬ ∀ q ∈ c, P q.negated

/-- Assuming the negation of `c`, unit propagation reaches a conflict. -/
def UPEnt (D : List Clause) (c : Clause) : Prop := ∀ P, World D P → ¬ ∀ q ∈ c, P q.negated

/-- Unit propagation alone reaches a conflict. -/
def NoWorld (D : List Clause) : Prop := ∀ P, ¬ World D P

/-- Every clause of `log` is found by unit propagation in `F` and the clauses before it. -/
def Derived (F log : List Clause) : Prop := ∀ (i : Nat) (c : Clause), log[i]? = some c → UPEnt (F ++ log.take i) c

section
variable {D D' F log : List Clause} {P : Lit → Prop} {c : Clause}

theorem World.mono (h : World D' P) (hs : ∀ c ∈ D, c ∈ D') : World D P :=
  ⟨h.con, fun c hc => h.unit c (hs c hc), fun c hc => h.conf c (hs c hc)⟩

theorem Acts.mem (h : c ∈ D) : Acts D c := ⟨fun _ hP => hP.unit c h, fun _ hP => hP.conf c h⟩

theorem Acts.mono (h : Acts D c) (hs : ∀ c ∈ D, c ∈ D') : Acts D' c :=
  ⟨fun P hP => h.unit P (hP.mono hs), fun P hP => h.conf P (hP.mono hs)⟩

theorem Acts.congr (h : Acts D c) {d : Clause} (e : ∀ l, l ∈ d ↔ l ∈ c) : Acts D d :=
  ⟨fun P hP u hu hq => h.unit P hP u ((e u).1 hu) fun q hqc => hq q ((e q).2 hqc),
    fun P hP hq => h.conf P hP fun q hqc => hq q ((e q).2 hqc)⟩

theorem Acts.upEnt (h : Acts D c) : UPEnt D c := h.conf

theorem UPEnt.mono (h : UPEnt D c) (hs : ∀ c ∈ D, c ∈ D') : UPEnt D' c := fun P hP => h P (hP.mono hs)

theorem UPEnt.weaken (h : UPEnt D c) {d : Clause} (hs : ∀ l ∈ c, l ∈ d) : UPEnt D d :=
  fun P hP hq => h P hP fun q hqc => hq q (hs q hqc)

theorem NoWorld.mono (h : NoWorld D) (hs : ∀ c ∈ D, c ∈ D') : NoWorld D' := fun P hP => h P (hP.mono hs)

/-- A model is a world. -/
theorem World.ofModel {τ : Nat → Bool} (h : Models τ D) : World D (fun l => l.holds τ) := by
  refine ⟨?_, ?_, ?_⟩
  · intro l hl hn
    exact (Lit.holds_negated τ l).1 hn hl
  · intro c hc u hu hq
    obtain ⟨q, hqc, hh⟩ := h c hc
    by_cases e : q = u
    · subst e; exact hh
    · exact absurd hh ((Lit.holds_negated τ q).1 (hq q hqc e))
  · intro c hc hq
    obtain ⟨q, hqc, hh⟩ := h c hc
    exact (Lit.holds_negated τ q).1 (hq q hqc) hh

theorem UPEnt.entails (h : UPEnt D c) : Entails D c := by
  intro τ hτ
  apply Classical.byContradiction
  intro hno
  refine h _ (World.ofModel hτ) fun q hq => ?_
  rw [Lit.holds_negated]
  exact fun hh => hno ⟨q, hq, hh⟩

theorem Derived.models (h : Derived F log) {τ : Nat → Bool} (hτ : Models τ F) : Models τ (F ++ log) := by
  have key : ∀ i, Models τ (F ++ log.take i) := by
    intro i
    induction i with
    | zero => simpa using hτ
    | succ i ih =>
      rw [List.take_add_one]
      cases hc : log[i]? with
      | none => simpa using ih
      | some c =>
        intro d hd
        rw [← List.append_assoc, List.mem_append] at hd
        rcases hd with hd | hd
        · exact ih d hd
        · simp at hd; subst hd
          exact (h i d hc).entails τ ih
  have := key log.length
  rwa [List.take_length] at this

theorem Derived.world (h : Derived F log) {τ : Nat → Bool} (hτ : Models τ F) :
    World (F ++ log) (fun l => l.holds τ) := World.ofModel (h.models hτ)

theorem NoWorld.unsat (h : NoWorld (F ++ log)) (hd : Derived F log) : ¬ Satisfiable F :=
  fun ⟨_, hτ⟩ => h _ (hd.world hτ)

theorem Derived.nil (F : List Clause) : Derived F [] := fun i c h => by simp at h

theorem Derived.snoc (h : Derived F log) (hc : UPEnt (F ++ log) c) : Derived F (log ++ [c]) := by
  intro i d hi
  rcases Nat.lt_or_ge i log.length with hlt | hge
  · rw [List.getElem?_append_left hlt] at hi
    rw [List.take_append_of_le_length (Nat.le_of_lt hlt)]
    exact h i d hi
  · rw [List.getElem?_append_right hge] at hi
    have : i = log.length := by
      have := (List.getElem?_eq_some_iff.1 hi).1
      simp at this; omega
    subst this
    simp at hi; subst hi
    rw [List.take_append_of_le_length (Nat.le_refl _), List.take_length]
    exact hc

theorem Derived.grow {G : List Clause} (h : Derived F log) (hs : ∀ c ∈ F, c ∈ G) : Derived G log := by
  intro i c hi
  refine (h i c hi).mono ?_
  intro d hd
  rcases List.mem_append.1 hd with hd | hd
  · exact List.mem_append_left _ (hs d hd)
  · exact List.mem_append_right _ hd

theorem mem_snoc_log {d x : Clause} (h : d ∈ F ++ log) : d ∈ F ++ (log ++ [x]) := by
  rw [← List.append_assoc]; exact List.mem_append_left _ h

/-- The same in the words of the checker's specification. -/
theorem UPEnt.conflict (h : UPEnt D c) : UPConflict D (c.map Lit.negated) := by
  apply Classical.byContradiction
  intro hno
  refine h (UP D (c.map Lit.negated)) ⟨?_, ?_, ?_⟩ ?_
  · intro l h1 h2
    exact hno (.inr ⟨l, h1, h2⟩)
  · intro d hd u hu hq
    exact .unit hd hu hq
  · intro d hd hq
    exact hno (.inl ⟨d, hd, hq⟩)
  · intro q hq
    exact .assumed (List.mem_map_of_mem hq)


/-- Clauses that are tautologies or contain a clause of `O` add nothing. -/
theorem World.cover {O L : List Clause} (h : World (O ++ L) P)
    (hF : ∀ c ∈ F, (∀ τ, Clause.holds τ c) ∨ ∃ c' ∈ O, ∀ l ∈ c', l ∈ c) : World (F ++ L) P := by
  have taut : ∀ c : Clause, (∀ τ, Clause.holds τ c) → ∃ l ∈ c, l.negated ∈ c := by
    intro c hc
    obtain ⟨l, hl, hh⟩ := hc fun v => decide ((⟨v, false⟩ : Lit) ∈ c)
    refine ⟨l, hl, ?_⟩
    have hh' : decide ((⟨l.var, false⟩ : Lit) ∈ c) = l.pos := hh
    cases hp : l.pos with
    | true =>
      rw [hp] at hh'
      have := of_decide_eq_true hh'
      have e : l.negated = ⟨l.var, false⟩ := by unfold Lit.negated; rw [hp]; rfl
      rw [e]; exact this
    | false =>
      rw [hp] at hh'
      have : l = ⟨l.var, false⟩ := by rw [← hp]
      exact absurd (this ▸ hl) (of_decide_eq_false hh')
  refine ⟨h.con, ?_, ?_⟩
  · intro c hc u hu hq
    rcases List.mem_append.1 hc with hc | hc
    · rcases hF c hc with ht | ⟨c', h1, h2⟩
      · obtain ⟨l, hl, hn⟩ := taut c ht
        by_cases e1 : l = u
        · have := hq _ hn (by subst e1; intro e; have := congrArg Lit.pos e; simp [Lit.negated] at this)
          rw [Lit.negated_negated] at this
          rw [← e1]; exact this
        · have hl' := hq l hl e1
          by_cases e2 : l.negated = u
          · rw [← e2]; exact hl'
          · have := hq _ hn e2
            exact absurd this (h.con _ hl')
      · by_cases e : u ∈ c'
        · exact h.unit c' (List.mem_append_left _ h1) u e fun q hqc => hq q (h2 q hqc)
        · exact absurd (fun q hqc => hq q (h2 q hqc) fun e' => e (e' ▸ hqc)) (h.conf c' (List.mem_append_left _ h1))
    · exact h.unit c (List.mem_append_right _ hc) u hu hq
  · intro c hc hq
    rcases List.mem_append.1 hc with hc | hc
    · rcases hF c hc with ht | ⟨c', h1, h2⟩
      · obtain ⟨l, hl, hn⟩ := taut c ht
        exact h.con _ (hq l hl) (hq _ hn)
      · exact h.conf c' (List.mem_append_left _ h1) fun q hqc => hq q (h2 q hqc)
    · exact h.conf c (List.mem_append_right _ hc) hq

theorem UPEnt.cover {O L : List Clause} (h : UPEnt (F ++ L) c)
    (hF : ∀ c ∈ F, (∀ τ, Clause.holds τ c) ∨ ∃ c' ∈ O, ∀ l ∈ c', l ∈ c) : UPEnt (O ++ L) c :=
  fun P hP => h P (hP.cover hF)

theorem NoWorld.cover {O L : List Clause} (h : NoWorld (F ++ L))
    (hF : ∀ c ∈ F, (∀ τ, Clause.holds τ c) ∨ ∃ c' ∈ O, ∀ l ∈ c', l ∈ c) : NoWorld (O ++ L) :=
  fun P hP => h P (hP.cover hF)
end

end Verif.Sat
