import Verif.Sat.Inproc
import Verif.Sat.CdclRun
/-!
# Inprocessing keeps the invariant of the solver
-/

namespace Verif.Sat
open Verif.Proof

/-- Every watcher belongs to a clause with the property. -/
def Ids (P : Nat → Prop) (S : Solver) : Prop := ∀ l, ∀ w ∈ S.watches l, P w.clause

/-- The clauses keep their literals. -/
def Mems (S S' : Solver) : Prop := ∀ i l, l ∈ S'.clauses.getD i [] ↔ l ∈ S.clauses.getD i []

theorem Mems.refl (S : Solver) : Mems S S := fun _ _ => Iff.rfl

theorem Mems.trans {A B C : Solver} (h : Mems A B) (k : Mems B C) : Mems A C :=
  fun i l => (k i l).trans (h i l)

theorem mem_set_same {cs : List Clause} {i : Nat} {c c' : Clause} (hc : cs[i]? = some c)
    (hp : ∀ l, l ∈ c' ↔ l ∈ c) (j : Nat) (l : Lit) : l ∈ (cs.set i c').getD j [] ↔ l ∈ cs.getD j [] := by
  simp only [List.getD_eq_getElem?_getD]
  by_cases e : i = j
  · subst e
    rw [List.getElem?_set_self (List.getElem?_eq_some_iff.1 hc).1, hc]
    exact hp l
  · rw [List.getElem?_set_ne e]

theorem frontOther_mem (f : Lit) (c : List Lit) (l : Lit) : l ∈ frontOther f c ↔ l ∈ c := by
  unfold frontOther
  split
  · split
    · simp only [List.mem_cons]
      constructor <;> (rintro (h | h | h) <;> simp [h])
    · rfl
  · rfl

section
variable {F : List Clause} {m : Nat} {S : Solver} {P : Nat → Prop}

/-- What one visit leaves alone. -/
def VisitT (P : Nat → Prop) (S : Solver) : Visit → Prop
  | .keep w' S' => P w'.clause ∧ Ids P S' ∧ Mems S S'
  | .move S' => Ids P S' ∧ Mems S S'
  | .conflict w' S' => P w'.clause ∧ Ids P S' ∧ Mems S S'
  | .panic => True

theorem visit_tame (f : Lit) (w : Watcher) (hS : Ids P S) (hw : P w.clause) : VisitT P S (visit S f w) := by
  unfold visit
  split
  · exact ⟨hw, hS, Mems.refl S⟩
  split
  · split
    · exact ⟨hw, hS, Mems.refl S⟩
    · exact ⟨hw, hS, Mems.refl S⟩
  cases hc : S.clauses[w.clause]? with
  | none => exact trivial
  | some c =>
    rw [Option.map_some]
    have hfm := frontOther_mem f c
    revert hfm
    match frontOther f c with
    | [] => exact fun _ => trivial
    | [_] => exact fun _ => trivial
    | o :: s :: rest =>
      intro hfm
      simp only
      have hm1 : Mems S { S with clauses := S.clauses.set w.clause (o :: s :: rest) } :=
        fun i l => mem_set_same hc hfm i l
      split
      · exact ⟨hw, hS, hm1⟩
      · cases hfw : findWatch S [] rest with
        | none =>
          simp only
          split
          · exact ⟨hw, hS, hm1⟩
          · exact ⟨hw, hS, hm1⟩
        | some x =>
          obtain ⟨pre, lk, post⟩ := x
          simp only
          obtain ⟨hsplit, _⟩ := findWatch_some hfw
          rw [List.nil_append] at hsplit
          subst hsplit
          refine ⟨?_, ?_⟩
          · intro l x hx
            have hx' : x ∈ upd S.watches lk (S.watches lk ++ [⟨w.clause, o,
              (o :: s :: (pre ++ lk :: post)).length == 2⟩]) l := hx
            by_cases e : l = lk
            · subst e
              rw [upd_same] at hx'
              rcases List.mem_append.1 hx' with h | h
              · exact hS _ x h
              · simp at h; rw [h]; exact hw
            · rw [upd_ne _ _ e] at hx'
              exact hS _ x hx'
          · intro i l
            refine mem_set_same hc ?_ i l
            intro q
            rw [← hfm q]
            simp only [List.mem_cons, List.mem_append]
            constructor
            · rintro (h | h | h | h | h) <;> simp [h]
            · rintro (h | h | h | h | h) <;> simp [h]

theorem visitAll_tame (f : Lit) (k : Nat) (kept todo : List Watcher) (hS : Ids P S) (hk : ∀ w ∈ kept, P w.clause)
    (ht : ∀ w ∈ todo, P w.clause) : Ids P (visitAll f k S kept todo).2 ∧ Mems S (visitAll f k S kept todo).2 := by
  induction k generalizing S kept todo with
  | zero =>
    cases todo with
    | nil =>
      rw [visitAll]
      refine ⟨?_, Mems.refl S⟩
      intro l w hw
      have hw' : w ∈ upd S.watches f kept l := hw
      by_cases e : l = f
      · subst e; rw [upd_same] at hw'; exact hk w hw'
      · rw [upd_ne _ _ e] at hw'; exact hS l w hw'
    | cons w rest => exact ⟨hS, Mems.refl S⟩
  | succ k ih =>
    cases todo with
    | nil =>
      rw [visitAll]
      refine ⟨?_, Mems.refl S⟩
      intro l w hw
      have hw' : w ∈ upd S.watches f kept l := hw
      by_cases e : l = f
      · subst e; rw [upd_same] at hw'; exact hk w hw'
      · rw [upd_ne _ _ e] at hw'; exact hS l w hw'
    | cons w rest =>
      rw [visitAll]
      have hv := visit_tame (S := S) f w hS (ht w (by simp))
      revert hv
      cases visit S f w with
      | panic => exact fun _ => ⟨hS, Mems.refl S⟩
      | keep w' S' =>
        rintro ⟨h1, h2, h3⟩
        have := ih (S := S') (kept ++ [w']) rest h2
          (by intro x hx; rcases List.mem_append.1 hx with hx | hx
              · exact hk x hx
              · simp at hx; rw [hx]; exact h1)
          (fun x hx => ht x (List.mem_cons_of_mem _ hx))
        exact ⟨this.1, h3.trans this.2⟩
      | move S' =>
        rintro ⟨h2, h3⟩
        have := ih (S := S') kept (swapHead rest) h2 hk
          (fun x hx => ht x (List.mem_cons_of_mem _ ((swapHead_perm rest).mem_iff.1 hx)))
        exact ⟨this.1, h3.trans this.2⟩
      | conflict w' S' =>
        rintro ⟨h1, h2, h3⟩
        refine ⟨?_, h3⟩
        intro l x hx
        have hx' : x ∈ upd S'.watches f (kept ++ w' :: rest) l := hx
        by_cases e : l = f
        · subst e
          rw [upd_same] at hx'
          rcases List.mem_append.1 hx' with hx' | hx'
          · exact hk x hx'
          · rcases List.mem_cons.1 hx' with rfl | hx'
            · exact h1
            · exact ht x (List.mem_cons_of_mem _ hx')
        · rw [upd_ne _ _ e] at hx'
          exact h2 l x hx'

theorem propLoop_tame (k : Nat) (hS : Ids P S) : Ids P (propLoop k S).2 ∧ Mems S (propLoop k S).2 := by
  induction k generalizing S with
  | zero => exact ⟨hS, Mems.refl S⟩
  | succ k ih =>
    rw [propLoop]
    split
    · exact ⟨hS, Mems.refl S⟩
    · rename_i p _
      have hv := visitAll_tame (S := { S with qhead := S.qhead + 1, watches := upd S.watches p.negated [] }) (P := P)
        p.negated (S.watches p.negated).length [] (S.watches p.negated)
        (by intro l w hw
            have hw' : w ∈ upd S.watches p.negated [] l := hw
            by_cases e : l = p.negated
            · subst e; rw [upd_same] at hw'; cases hw'
            · rw [upd_ne _ _ e] at hw'; exact hS l w hw')
        (fun w hw => by cases hw) (fun w hw => hS _ w hw)
      revert hv
      simp only
      rcases visitAll p.negated (S.watches p.negated).length
        { S with qhead := S.qhead + 1, watches := upd S.watches p.negated [] } [] (S.watches p.negated) with ⟨r, S'⟩
      cases r with
      | done =>
        intro hv
        have := ih (S := S') hv.1
        exact ⟨this.1, Mems.trans hv.2 this.2⟩
      | conflict ci => exact fun hv => hv
      | panic => exact fun hv => hv

theorem propagate_tame (hS : Ids P S) : Ids P S.propagate.2 ∧ Mems S S.propagate.2 := propLoop_tame _ hS

/-! ## Detaching and replacing a clause -/

theorem dropFirst_sublist (ci : Nat) (L : List Watcher) :
    ∃ L' : List Watcher, L'.Perm (dropFirst ci L) ∧ L'.Sublist L := by
  induction L with
  | nil => exact ⟨[], .refl _, .refl _⟩
  | cons w rest ih =>
    unfold dropFirst
    split
    · exact ⟨rest, (swapHead_perm rest).symm, List.sublist_cons_self _ _⟩
    · obtain ⟨L', h1, h2⟩ := ih
      exact ⟨w :: L', h1.cons w, h2.cons_cons w⟩

theorem dropFirst_keep {ci : Nat} {L : List Watcher} {w : Watcher} (hw : w ∈ L) (hne : w.clause ≠ ci) :
    w ∈ dropFirst ci L := by
  induction L with
  | nil => cases hw
  | cons x rest ih =>
    unfold dropFirst
    split
    · rename_i h
      rcases List.mem_cons.1 hw with rfl | hw
      · exact absurd h hne
      · exact (swapHead_perm rest).mem_iff.2 hw
    · rcases List.mem_cons.1 hw with rfl | hw
      · simp
      · exact List.mem_cons_of_mem _ (ih hw)

theorem dropFirst_gone {ci : Nat} {L : List Watcher} (hn : (L.map Watcher.clause).Nodup) :
    ∀ w ∈ dropFirst ci L, w.clause ≠ ci := by
  induction L with
  | nil => intro w hw; cases hw
  | cons x rest ih =>
    rw [List.map_cons, List.nodup_cons] at hn
    unfold dropFirst
    split
    · rename_i h
      intro w hw e
      have hw := (swapHead_perm rest).mem_iff.1 hw
      exact hn.1 (by rw [h, ← e]; exact List.mem_map_of_mem hw)
    · rename_i h
      intro w hw
      rcases List.mem_cons.1 hw with rfl | hw
      · exact h
      · exact ih hn.2 w hw

theorem dropFirst_mem {ci : Nat} {L : List Watcher} {w : Watcher} (hw : w ∈ dropFirst ci L) : w ∈ L := by
  obtain ⟨L', h1, h2⟩ := dropFirst_sublist ci L
  exact h2.subset (h1.mem_iff.2 hw)

theorem dropFirst_nodup {ci : Nat} {L : List Watcher} (hn : (L.map Watcher.clause).Nodup) :
    ((dropFirst ci L).map Watcher.clause).Nodup := by
  obtain ⟨L', h1, h2⟩ := dropFirst_sublist ci L
  exact ((h1.map _).nodup_iff).1 (hn.sublist (h2.map _))

/-- Detaching a clause beyond the first `m`. -/
theorem unwatch_ok (h : Inv F m S) {ci : Nat} (hm : m ≤ ci) :
    ∃ W, S.unwatch ci = { S with watches := W } ∧ Inv F m { S with watches := W } ∧
      ∀ l, ∀ w ∈ W l, w.clause ≠ ci := by
  have hnone : (S.clauses.getD ci []).length < 2 → ∀ l, ∀ w ∈ S.watches l, w.clause ≠ ci := by
    intro hlt l w hw e
    obtain ⟨c, h1, h2, _⟩ := h.wat.ok l w hw
    rw [e] at h1
    rw [List.getD_eq_getElem?_getD, h1] at hlt
    simp at hlt; omega
  unfold Solver.unwatch
  match hc : S.clauses.getD ci [] with
  | [] => exact ⟨S.watches, rfl, h, hnone (by rw [hc]; simp)⟩
  | [_] => exact ⟨S.watches, rfl, h, hnone (by rw [hc]; simp)⟩
  | a :: b :: rest =>
    simp only
    have hci : S.clauses[ci]? = some (a :: b :: rest) := by
      rw [List.getD_eq_getElem?_getD] at hc
      cases hx : S.clauses[ci]? with
      | none => rw [hx] at hc; cases hc
      | some c => rw [hx] at hc; simpa using hc
    have hab : a ≠ b := by
      rintro rfl
      have := h.core.clsN _ (List.mem_of_getElem? hci)
      simp at this
    -- the new lists, literal by literal
    have hW : ∀ l, upd (upd S.watches a (dropFirst ci (S.watches a))) b
        (dropFirst ci (upd S.watches a (dropFirst ci (S.watches a)) b)) l =
        if l = a ∨ l = b then dropFirst ci (S.watches l) else S.watches l := by
      intro l
      by_cases e : l = b
      · subst e
        rw [upd_same, upd_ne _ _ (Ne.symm hab), if_pos (.inr rfl)]
      · rw [upd_ne _ _ e]
        by_cases e2 : l = a
        · subst e2
          rw [upd_same, if_pos (.inl rfl)]
        · rw [upd_ne _ _ e2, if_neg (fun h => h.elim e2 e)]
    refine ⟨_, rfl, ?_, ?_⟩
    · refine ⟨h.core.setWatches _, h.orig.setWatches _, ⟨?_, ?_⟩, ?_, h.w1⟩
      · intro l w hw
        refine h.wat.ok l w ?_
        have hw' : w ∈ upd (upd S.watches a (dropFirst ci (S.watches a))) b
          (dropFirst ci (upd S.watches a (dropFirst ci (S.watches a)) b)) l := hw
        rw [hW] at hw'
        split at hw'
        · exact dropFirst_mem hw'
        · exact hw'
      · intro l
        show ((upd (upd S.watches a (dropFirst ci (S.watches a))) b _ l).map _).Nodup
        rw [hW]
        split
        · exact dropFirst_nodup (h.wat.uniq l)
        · exact h.wat.uniq l
      · intro cj hcj c hcc h2 l hl
        obtain ⟨w, hw, e⟩ := h.watO cj hcj c hcc h2 l hl
        refine ⟨w, ?_, e⟩
        show w ∈ upd (upd S.watches a (dropFirst ci (S.watches a))) b _ l
        rw [hW]
        split
        · exact dropFirst_keep hw (by omega)
        · exact hw
    · intro l w hw
      rw [hW] at hw
      split at hw
      · exact dropFirst_gone (h.wat.uniq l) w hw
      · rename_i hl
        intro e
        obtain ⟨c, h1, _, h3, _⟩ := h.wat.ok l w hw
        rw [e, hci] at h1; cases h1
        exact hl (by simpa using h3)

/-- Attaching a clause that nothing watches. -/
theorem rewatchAt_ok (h : Inv F m S) {ci : Nat} (hn : ∀ l, ∀ w ∈ S.watches l, w.clause ≠ ci) :
    ∃ W, S.rewatchAt ci = { S with watches := W } ∧ Inv F m { S with watches := W } := by
  unfold Solver.rewatchAt
  match hc : S.clauses.getD ci [] with
  | [] => exact ⟨S.watches, rfl, h⟩
  | [_] => exact ⟨S.watches, rfl, h⟩
  | a :: b :: rest =>
    simp only
    have hci : S.clauses[ci]? = some (a :: b :: rest) := by
      rw [List.getD_eq_getElem?_getD] at hc
      cases hx : S.clauses[ci]? with
      | none => rw [hx] at hc; cases hc
      | some c => rw [hx] at hc; simpa using hc
    have hab : a ≠ b := by
      rintro rfl
      have := h.core.clsN _ (List.mem_of_getElem? hci)
      simp at this
    refine ⟨_, rfl, h.core.setWatches _, h.orig.setWatches _, h.wat.push hci hab hn, ?_, h.w1⟩
    intro cj hcj c hcc h2 l hl
    obtain ⟨w, hw, e⟩ := h.watO cj hcj c hcc h2 l hl
    exact ⟨w, push_mem hab hw, e⟩

/-- Replacing a detached clause beyond the first `m` by an entailed one, at the top level. -/
theorem Inv.setLearned (h : Inv F m S) (hl : S.lim = []) {ci : Nat} {c : Clause} (hm : m ≤ ci)
    (hn : ∀ l, ∀ w ∈ S.watches l, w.clause ≠ ci) (hc : UPEnt (F ++ S.log) c) (hr : ∀ l ∈ c, l.var < S.n) (hnd : c.Nodup)
    (htt : ∀ l ∈ c, l.negated ∉ c) :
    Inv F m { S with clauses := S.clauses.set ci c, log := S.log ++ [c] } := by
  have hold : ∀ cj < m, (S.clauses.set ci c)[cj]? = S.clauses[cj]? := by
    intro cj hcj
    rw [List.getElem?_set_ne (by omega)]
  have hmem : ∀ d ∈ S.clauses.set ci c, d ∈ S.clauses ∨ d = c := fun d hd => List.mem_or_eq_of_mem_set hd
  have k := h.core
  refine ⟨?_, ⟨?_, ?_, ?_, ?_⟩, ⟨?_, h.wat.uniq⟩, ?_, ?_⟩
  · refine
      { nodup := k.nodup, val := k.val, rng := k.rng, limS := k.limS, limB := k.limB, lev := k.lev,
        qle := k.qle, limQ := k.limQ, whyN := k.whyN, whyC := ?_, zeroU := ?_, clsU := ?_, clsR := ?_,
        clsN := ?_, clsT := ?_, logU := k.logU.snoc hc, logR := ?_, empU := fun e => (k.empU e).mono fun _ hd => mem_snoc_log hd, heapO := k.heapO, heapR := k.heapR }
    · intro i l cj _ h0
      have h0' : 0 < lv S.lim i := h0
      rw [hl, lv_nil] at h0'
      omega
    · intro i l hi h0 P hP
      exact k.zeroU i l hi h0 P (hP.mono fun _ hd => mem_snoc_log hd)
    · intro d hd
      rcases hmem d hd with hd | rfl
      · exact (k.clsU d hd).mono fun _ hd => mem_snoc_log hd
      · exact .mem (by simp)
    · intro d hd
      rcases hmem d hd with hd | rfl
      · exact k.clsR d hd
      · exact hr
    · intro d hd
      rcases hmem d hd with hd | rfl
      · exact k.clsN d hd
      · exact hnd
    · intro d hd
      rcases hmem d hd with hd | rfl
      · exact k.clsT d hd
      · exact htt
    · intro d hd
      rcases List.mem_append.1 hd with hd | hd
      · exact k.logR d hd
      · simp at hd; rw [hd]; exact hr
  · intro d hd
    rcases h.orig.orig d hd with h1 | ⟨cj, h1, h2⟩
    · exact .inl h1
    · exact .inr ⟨cj, h1, by rw [hold cj h1]; exact h2⟩
  · show m ≤ (S.clauses.set ci c).length
    rw [List.length_set]; exact h.orig.mle
  · intro cj hcj l hcl
    exact h.orig.unit cj hcj l (by rw [← hold cj hcj]; exact hcl)
  · intro cj hcj hcl
    exact h.orig.emp cj hcj (by rw [← hold cj hcj]; exact hcl)
  · intro l w hw
    obtain ⟨d, h1, h2⟩ := h.wat.ok l w hw
    exact ⟨d, by rw [List.getElem?_set_ne (fun e => hn l w hw e.symm)]; exact h1, h2⟩
  · intro cj hcj d hd
    exact h.watO cj hcj d (by rw [← hold cj hcj]; exact hd)
  · intro cj hcj d hd
    exact h.w1 cj hcj d (by rw [← hold cj hcj]; exact hd)

/-! ## Rounds -/

/-- A state at the top level at which propagation has nothing left to do. -/
structure Top (F : List Clause) (m : Nat) (S : Solver) : Prop where
  inv : Inv F m S
  lim : S.lim = []
  fix : S.qhead = S.trail.length
  emp : S.empty = false
  mle : m ≤ S.nOrig
  nle : S.nOrig ≤ S.clauses.length

/-- What a step may change: the literals of clause `ex` only. -/
structure Kept (ex : Nat → Prop) (S S' : Solver) : Prop where
  n : S'.n = S.n
  len : S'.clauses.length = S.clauses.length
  nOrig : S'.nOrig = S.nOrig
  mem : ∀ i, ¬ ex i → ∀ l, l ∈ S'.clauses.getD i [] ↔ l ∈ S.clauses.getD i []
  log : ∀ d ∈ S.log, d ∈ S'.log

theorem Kept.trans {ex : Nat → Prop} {A B C : Solver} (h : Kept ex A B) (k : Kept ex B C) : Kept ex A C :=
  ⟨k.n.trans h.n, k.len.trans h.len, k.nOrig.trans h.nOrig, fun i hi l => (k.mem i hi l).trans (h.mem i hi l),
    fun d hd => k.log d (h.log d hd)⟩

/-- A step went well. -/
def StepOK (F : List Clause) (m : Nat) (n : Nat) (R : Solver → Prop) : Round → Prop
  | .ok S' => Top F m S' ∧ S'.n = n ∧ R S'
  | .unsat S' => NoWorld (F ++ S'.log) ∧ Core F S' ∧ S'.n = n ∧ Held F m S'
  | .panic _ => False

theorem StepOK.mono {n : Nat} {R R' : Solver → Prop} {r : Round} (h : StepOK F m n R r) (k : ∀ S, R S → R' S) :
    StepOK F m n R' r := by
  cases r with
  | ok S' => exact ⟨h.1, h.2.1, k _ h.2.2⟩
  | unsat S' => exact h
  | panic S' => exact h

theorem settle_ok (h : Inv F m S) (hl : S.lim = []) (he : S.empty = false) (h1 : m ≤ S.nOrig)
    (h2 : S.nOrig ≤ S.clauses.length) : StepOK F m S.n (Kept (fun _ => False) S) S.settle := by
  unfold Solver.settle
  have hp := propagate_ok h
  have hfix := fun S' => propagate_fix (S' := S') h
  have ht := (propagate_tame (S := S) (P := fun _ => True) (fun _ _ _ => trivial)).2
  revert hp hfix ht
  rcases S.propagate with ⟨r, S1⟩
  cases r with
  | panic => exact fun hp => hp.elim
  | conflict ci =>
    rintro ⟨hc, hf, hx⟩ _ _
    obtain ⟨c, g1, g2, _⟩ := hf.ex
    exact ⟨hc.core.refuted (hx.lim.trans hl) (List.mem_of_getElem? g1) g2, hc.core, hx.n, hc.orig.orig, by rw [hx.nOrig]; exact h1⟩
  | done =>
    rintro ⟨hi, hx⟩ hfix ht
    exact ⟨⟨hi, hx.lim.trans hl, hfix S1 rfl, hx.empty.trans he, by rw [hx.nOrig]; exact h1,
      by rw [hx.nOrig, hx.len]; exact h2⟩, hx.n, hx.n, hx.len, hx.nOrig, fun i _ => ht i,
      by rw [hx.log]; exact fun _ hd => hd⟩

theorem Core.setEmpty (h : Core F S) (hu : NoWorld (F ++ S.log)) : Core F { S with empty := true } :=
  { nodup := h.nodup, val := h.val, rng := h.rng, limS := h.limS, limB := h.limB, lev := h.lev,
    qle := h.qle, limQ := h.limQ, whyN := h.whyN, whyC := h.whyC, zeroU := h.zeroU, clsU := h.clsU,
    clsR := h.clsR, clsN := h.clsN, clsT := h.clsT, logU := h.logU, logR := h.logR, empU := fun _ => hu, heapO := h.heapO, heapR := h.heapR }

theorem settleUnit_ok (h : Inv F m S) (hl : S.lim = []) (he : S.empty = false) (h1 : m ≤ S.nOrig)
    (h2 : S.nOrig ≤ S.clauses.length) {u : Lit} {ci : Nat} (hc : S.clauses[ci]? = some [u]) :
    StepOK F m S.n (Kept (fun _ => False) S) (S.settleUnit u ci) := by
  have hmem := List.mem_of_getElem? hc
  unfold Solver.settleUnit
  cases hv : S.val u with
  | none =>
    simp only
    have hi := h.enqueue (l := u) (ci := ci) ((val_none S u).1 hv) (h.core.clsR _ hmem u (by simp))
      ⟨[u], hc, by simp, by intro q hq hne; simp at hq; exact absurd hq hne⟩
    exact (settle_ok hi hl he h1 h2).mono fun S' k => ⟨k.n, k.len, k.nOrig, k.mem, k.log⟩
  | some b =>
    cases b with
    | true => exact settle_ok h hl he h1 h2
    | false =>
      have hu : NoWorld (F ++ S.log) := by
        intro P hP
        refine (h.core.clsU _ hmem).conf P hP fun q hq => ?_
        simp at hq; subst hq
        exact h.core.zero_allU hl _ ((h.core.val_false q).1 hv) P hP
      exact ⟨hu, h.core.setEmpty hu, rfl, h.orig.orig, h1⟩

theorem replace_ok (h : Top F m S) {ci : Nat} {c : Clause} (hm : m ≤ ci) (hlt : ci < S.clauses.length)
    (hn : ∀ l, ∀ w ∈ S.watches l, w.clause ≠ ci) (hc : UPEnt (F ++ S.log) c) (hr : ∀ l ∈ c, l.var < S.n) (hnd : c.Nodup)
    (htt : ∀ l ∈ c, l.negated ∉ c) :
    StepOK F m S.n (Kept (· = ci) S) (S.replace ci c) := by
  have hi := h.inv.setLearned h.lim hm hn hc hr hnd htt
  have hset : (S.clauses.set ci c)[ci]? = some c := List.getElem?_set_self hlt
  have hkept : Kept (· = ci) S { S with clauses := S.clauses.set ci c, log := S.log ++ [c] } := by
    refine ⟨rfl, List.length_set, rfl, ?_, fun _ hd => List.mem_append_left _ hd⟩
    intro i hne l
    show l ∈ (S.clauses.set ci c).getD i [] ↔ _
    rw [List.getD_eq_getElem?_getD, List.getElem?_set_ne (Ne.symm hne), ← List.getD_eq_getElem?_getD]
  have hnle : S.nOrig ≤ (S.clauses.set ci c).length := by rw [List.length_set]; exact h.nle
  unfold Solver.replace
  match c, hc, hi, hset, hkept, hnle with
  | [], hc, hi, hset, hkept, hnle =>
    have hu : NoWorld (F ++ (S.log ++ [[]])) := fun P hP => hP.conf [] (by simp) fun q hq => by cases hq
    exact ⟨hu, hi.core.setEmpty hu, rfl, hi.orig.orig, h.mle⟩
  | [u], hc, hi, hset, hkept, hnle =>
    refine (settleUnit_ok hi h.lim h.emp h.mle hnle hset).mono ?_
    intro S' k
    exact hkept.trans ⟨k.n, k.len, k.nOrig, fun i _ => k.mem i (fun e => e), k.log⟩
  | a :: b :: rest, hc, hi, hset, hkept, hnle =>
    simp only
    obtain ⟨W, e, hiW⟩ := rewatchAt_ok hi hn
    rw [e]
    exact ⟨⟨hiW, h.lim, h.fix, h.emp, h.mle, hnle⟩, rfl, hkept.n, hkept.len, hkept.nOrig, hkept.mem, hkept.log⟩

/-! ## Trial decisions -/

/-- When the decisions are in a world, so is the whole trail. -/
theorem Core.decisions (h : Core F S) {P : Lit → Prop} (hP : World (F ++ S.log) P)
    (hd : ∀ i ∈ S.lim, ∀ l, S.trail[i]? = some l → P l) : ∀ l ∈ S.trail, P l := by
  have key : ∀ (i : Nat) (l : Lit), S.trail[i]? = some l → P l := by
    intro i
    induction i using Nat.strongRecOn with
    | _ i ih =>
      intro l hl
      rcases Nat.eq_zero_or_pos (lv S.lim i) with h0 | h0
      · exact h.zeroU i l hl h0 P hP
      · cases hr : S.reason l.var with
        | none => exact hd i (h.whyN i l hl h0 hr) l hl
        | some ci =>
          obtain ⟨c, hc, hlc, hoth⟩ := h.whyC i l ci hl h0 hr
          refine (h.clsU c (List.mem_of_getElem? hc)).unit P hP l hlc fun q hq e => ?_
          obtain ⟨j, hj, hqj⟩ := mem_take_iff.1 (hoth q hq e)
          exact ih j hj _ hqj
  intro l hl
  obtain ⟨i, hi⟩ := List.mem_iff_getElem?.1 hl
  exact key i l hi

/-- The decisions are the negations of literals of `K`. -/
def Against (K : List Lit) (S : Solver) : Prop :=
  ∀ i ∈ S.lim, ∀ l, S.trail[i]? = some l → l.negated ∈ K

theorem Against.holds {K : List Lit} (h : Against K S) (hc : Core F S) {P : Lit → Prop} (hP : World (F ++ S.log) P)
    (hk : ∀ l ∈ K, P l.negated) : ∀ l ∈ S.trail, P l := by
  refine hc.decisions hP ?_
  intro i hi l hl
  have := hk _ (h i hi l hl)
  rwa [Lit.negated_negated] at this

theorem Against.decide {K : List Lit} {l : Lit} (h : Against K S) (hc : Core F S) :
    Against (K ++ [l]) (S.decide l.negated) := by
  intro i hi x hx
  have hi' : i ∈ S.lim ++ [S.trail.length] := hi
  have hx' : (S.trail ++ [l.negated])[i]? = some x := hx
  rcases List.mem_append.1 hi' with hi' | hi'
  · rw [List.getElem?_append_left (hc.limB i hi')] at hx'
    exact List.mem_append_left _ (h i hi' x hx')
  · simp at hi'; subst hi'
    rcases getElem?_snoc.1 hx' with hx' | ⟨_, rfl⟩
    · have := (List.getElem?_eq_some_iff.1 hx').1; omega
    · rw [show l.negated.negated = l by simp [Lit.negated]]; simp

theorem Against.ext {K : List Lit} {S S' : Solver} (h : Against K S) (hc : Core F S) (hx : Ext S S') :
    Against K S' := by
  obtain ⟨t, ht⟩ := hx.pre
  intro i hi l hl
  rw [hx.lim] at hi
  rw [← ht, List.getElem?_append_left (hc.limB i hi)] at hl
  exact h i hi l hl

/-- Returning to the top level after trial decisions. -/
theorem back_top {S0 : Solver} (h : Conf F m S) (hl0 : S.lim = [] → Inv F m S ∧ S.qhead = S.trail.length)
    (hn : S.n = S0.n) (hlen : S.clauses.length = S0.clauses.length) (he : S.empty = false) (ho : S.nOrig = S0.nOrig)
    (h1 : m ≤ S0.nOrig) (h2 : S0.nOrig ≤ S0.clauses.length) (hmem : Mems S0 S) (hlg : S.log = S0.log) :
    Top F m (S.backtrackTo 0) ∧ Kept (fun _ => False) S0 (S.backtrackTo 0) ∧
      (S.backtrackTo 0).watches = S.watches ∧ (S.backtrackTo 0).clauses = S.clauses ∧ (S.backtrackTo 0).log = S.log := by
  rcases Nat.eq_zero_or_pos S.lim.length with hz | hz
  · have hl : S.lim = [] := List.length_eq_zero_iff.1 hz
    have : S.backtrackTo 0 = S := by
      unfold Solver.backtrackTo
      rw [hl]; rfl
    rw [this]
    obtain ⟨g1, g2⟩ := hl0 hl
    exact ⟨⟨g1, hl, g2, he, by rw [ho]; exact h1, by rw [ho, hlen]; exact h2⟩, ⟨hn, hlen, ho, fun i _ => hmem i, by rw [hlg]; exact fun _ hd => hd⟩, rfl, rfl, rfl⟩
  · obtain ⟨g1, g2, _⟩ := backtrack_ok h hz
    have hfix : (S.backtrackTo 0).qhead = (S.backtrackTo 0).trail.length := by
      unfold Solver.backtrackTo
      have : S.lim[0]? = some S.lim[0] := by simp
      rw [this]
      show S.lim[0] = (S.trail.take S.lim[0]).length
      rw [List.length_take]
      have := h.core.limB _ (List.getElem_mem hz)
      omega
    have hw : (S.backtrackTo 0).watches = S.watches := by
      unfold Solver.backtrackTo
      have : S.lim[0]? = some S.lim[0] := by simp
      rw [this]
      have := (unassign_fold (S.trail.drop S.lim[0]).reverse S).eq
      show ((S.trail.drop S.lim[0]).reverse.foldl Solver.unassign S).watches = _
      rw [this]
    refine ⟨⟨g1, by rw [g2.lim]; rfl, hfix, by rw [g2.empty]; exact he, by rw [g2.nOrig, ho]; exact h1,
      by rw [g2.nOrig, g2.clauses, ho, hlen]; exact h2⟩, ⟨g2.n.trans hn, by rw [g2.clauses]; exact hlen,
      g2.nOrig.trans ho, ?_, by rw [g2.log, hlg]; exact fun _ hd => hd⟩, hw, g2.clauses, g2.log⟩
    intro i _ l
    rw [g2.clauses]
    exact hmem i l

/-! ## Vivification -/

/-- The state of the trial. -/
structure VivInv (F : List Clause) (m ci : Nat) (c : Clause) (S0 S : Solver) (kept ls : List Lit) : Prop where
  inv : Inv F m S
  fix : S.qhead = S.trail.length
  ag : Against kept S
  ids : Ids (· ≠ ci) S
  mem : Mems S0 S
  n : S.n = S0.n
  len : S.clauses.length = S0.clauses.length
  emp : S.empty = false
  nOrig : S.nOrig = S0.nOrig
  log : S.log = S0.log
  cov : ∀ q ∈ c, q ∈ kept ∨ q ∈ ls ∨ q.negated ∈ S.trail

structure VivEnd (F : List Clause) (m ci : Nat) (S0 : Solver) (t : Trial) : Prop where
  conf : Conf F m t.st
  zero : t.st.lim = [] → Inv F m t.st ∧ t.st.qhead = t.st.trail.length
  ids : Ids (· ≠ ci) t.st
  mem : Mems S0 t.st
  n : t.st.n = S0.n
  len : t.st.clauses.length = S0.clauses.length
  emp : t.st.empty = false
  nOrig : t.st.nOrig = S0.nOrig
  log : t.st.log = S0.log
  ent : UPEnt (F ++ S0.log) t.kept

theorem vivLoop_ok {len ci : Nat} {c : Clause} {S0 : Solver} (hc : Acts (F ++ S0.log) c) (ls : List Lit) (sh : Bool)
    (kept : List Lit) (h : VivInv F m ci c S0 S kept ls) (hr : ∀ l ∈ ls, l.var < S.n) :
    ∃ t, vivLoop len ls sh kept S = some t ∧ VivEnd F m ci S0 t ∧ t.kept.Sublist (kept ++ ls) := by
  induction ls generalizing sh kept S with
  | nil =>
    refine ⟨_, rfl, ⟨h.inv.conf, fun _ => ⟨h.inv, h.fix⟩, h.ids, h.mem, h.n, h.len, h.emp, h.nOrig, h.log, ?_⟩, by simp⟩
    intro P hP hk
    refine hc.conf P hP fun q hq => ?_
    rcases h.cov q hq with h1 | h1 | h1
    · exact hk q h1
    · cases h1
    · exact h.ag.holds h.inv.core (by rw [h.log]; exact hP) hk _ h1
  | cons l ls ih =>
    rw [vivLoop]
    cases hv : S.val l with
    | some b =>
      cases b with
      | false =>
        simp only
        have hneg := (h.inv.core.val_false l).1 hv
        obtain ⟨t, e, h1, h2⟩ := ih true kept
          ⟨h.inv, h.fix, h.ag, h.ids, h.mem, h.n, h.len, h.emp, h.nOrig, h.log, (by
            intro q hq
            rcases h.cov q hq with h1 | h1 | h1
            · exact .inl h1
            · rcases List.mem_cons.1 h1 with rfl | h1
              · exact .inr (.inr hneg)
              · exact .inr (.inl h1)
            · exact .inr (.inr h1))⟩ (fun x hx => hr x (List.mem_cons_of_mem _ hx))
        exact ⟨t, e, h1, h2.trans (List.Sublist.append_left (List.sublist_cons_self l ls) kept)⟩
      | true =>
        simp only
        have hpos := (h.inv.core.val_true l).1 hv
        refine ⟨_, rfl, ⟨h.inv.conf, fun _ => ⟨h.inv, h.fix⟩, h.ids, h.mem, h.n, h.len, h.emp, h.nOrig, h.log, ?_⟩, ?_⟩
        · intro P hP hk
          exact hP.con l (h.ag.holds h.inv.core (by rw [h.log]; exact hP)
            (fun q hq => hk q (List.mem_append_left _ hq)) _ hpos) (hk l (by simp))
        · exact List.Sublist.append_left (by simp) kept
    | none =>
      simp only
      have hun := (val_none S l).1 hv
      have hi := h.inv.decide (l := l.negated) hun (hr l (by simp)) h.fix
      have hag := h.ag.decide (l := l) h.inv.core
      have hp := propagate_ok hi
      have hfix := fun S' => propagate_fix (S' := S') hi
      have ht := propagate_tame (S := S.decide l.negated) (P := (· ≠ ci)) h.ids
      revert hp hfix ht
      rcases (S.decide l.negated).propagate with ⟨r, S1⟩
      cases r with
      | panic => exact fun hp => hp.elim
      | conflict cj =>
        rintro ⟨hcf, hf, hx⟩ _ ht
        simp only
        refine ⟨_, rfl, ⟨hcf, ?_, ht.1, Mems.trans h.mem ht.2, hx.n.trans h.n, hx.len.trans h.len, hx.empty.trans h.emp,
          hx.nOrig.trans h.nOrig, hx.log.trans h.log, ?_⟩, ?_⟩
        · intro hl
          have := hx.lim
          rw [show S1.lim = [] from hl] at this
          have h3 : S.lim ++ [S.trail.length] = [] := this.symm
          simp at h3
        · intro P hP hk
          have hlog : S1.log = S0.log := hx.log.trans h.log
          have hP' : World (F ++ S1.log) P := by rw [hlog]; exact hP
          have hall := (hag.ext hi.core hx).holds hcf.core hP' hk
          obtain ⟨d, d1, d2, _⟩ := hf.ex
          exact (hcf.core.clsU d (List.mem_of_getElem? d1)).conf P hP' fun q hq => hall _ (d2 q hq)
        · exact List.Sublist.append_left (by simp) kept
      | done =>
        rintro ⟨hi1, hx⟩ hfix ht
        simp only
        have hn1 : S1.n = S.n := hx.n
        obtain ⟨t, e, h1, h2⟩ := ih (S := S1) sh (kept ++ [l])
          ⟨hi1, hfix S1 rfl, hag.ext hi.core hx, ht.1, Mems.trans h.mem ht.2, hx.n.trans h.n, hx.len.trans h.len,
            hx.empty.trans h.emp, hx.nOrig.trans h.nOrig, hx.log.trans h.log, (by
            intro q hq
            rcases h.cov q hq with h1 | h1 | h1
            · exact .inl (List.mem_append_left _ h1)
            · rcases List.mem_cons.1 h1 with rfl | h1
              · exact .inl (by simp)
              · exact .inr (.inl h1)
            · exact .inr (.inr (hx.pre.subset (List.mem_append_left _ h1))))⟩
          (fun x hx' => by rw [hn1]; exact hr x (List.mem_cons_of_mem _ hx'))
        exact ⟨t, e, h1, by simpa using h2⟩

theorem getD_some {cs : List Clause} {i : Nat} (h : i < cs.length) : cs[i]? = some (cs.getD i []) := by
  simp [List.getD_eq_getElem?_getD, h]

theorem vivifyAt_ok (h : Top F m S) {ci : Nat} (hm : m ≤ ci) (hlt : ci < S.clauses.length) :
    StepOK F m S.n (Kept (· = ci) S) (S.vivifyAt ci) := by
  have hcl := getD_some hlt
  have hmem := List.mem_of_getElem? hcl
  obtain ⟨W, e, hW, hid⟩ := unwatch_ok h.inv hm
  unfold Solver.vivifyAt
  simp only
  rw [e]
  have hviv : VivInv F m ci (S.clauses.getD ci []) S { S with watches := W } [] (S.clauses.getD ci []) :=
    ⟨hW, h.fix, (by intro i hi; rw [show ({ S with watches := W } : Solver).lim = [] from h.lim] at hi; cases hi), hid,
      Mems.refl S, rfl, rfl, h.emp, rfl, rfl, fun q hq => .inr (.inl hq)⟩
  obtain ⟨t, e1, h1, h2⟩ := vivLoop_ok (len := (S.clauses.getD ci []).length) (h.inv.core.clsU _ hmem) _ false [] hviv
    (h.inv.core.clsR _ hmem)
  rw [e1]
  simp only
  obtain ⟨g1, g2, g3, g4, g5⟩ := back_top (S0 := S) h1.conf h1.zero h1.n h1.len h1.emp h1.nOrig h.mle h.nle h1.mem h1.log
  have hids : ∀ l, ∀ w ∈ (t.st.backtrackTo 0).watches l, w.clause ≠ ci := by
    rw [g3]; exact h1.ids
  rw [List.nil_append] at h2
  split
  · have := replace_ok g1 hm (by rw [g2.len]; exact hlt) hids (by rw [g5, h1.log]; exact h1.ent)
      (by rw [g2.n]; exact fun l hl => h.inv.core.clsR _ hmem l (h2.subset hl))
      ((h.inv.core.clsN _ hmem).sublist h2)
      (fun l hl hn => h.inv.core.clsT _ hmem l (h2.subset hl) (h2.subset hn))
    rw [g2.n] at this
    exact this.mono fun S' k => Kept.trans ⟨g2.n, g2.len, g2.nOrig, fun i _ => g2.mem i (fun e => e), g2.log⟩ k
  · obtain ⟨W', e', hW'⟩ := rewatchAt_ok g1.inv hids
    rw [e']
    exact ⟨⟨hW', g1.lim, g1.fix, g1.emp, g1.mle, g1.nle⟩, g2.n, g2.n, g2.len, g2.nOrig, fun i _ => g2.mem i (fun e => e), g2.log⟩

theorem vivifyAll_ok (cap : Nat) (cis : List Nat) (h : Top F m S) (hb : ∀ ci ∈ cis, m ≤ ci ∧ ci < S.clauses.length) :
    StepOK F m S.n (fun _ => True) (vivifyAll cap cis S) := by
  induction cis generalizing cap S with
  | nil =>
    cases cap <;> exact ⟨h, rfl, trivial⟩
  | cons ci cis ih =>
    cases cap with
    | zero => exact ⟨h, rfl, trivial⟩
    | succ cap =>
      rw [vivifyAll]
      have hb' : ∀ cj ∈ cis, m ≤ cj ∧ cj < S.clauses.length := fun cj hj => hb cj (List.mem_cons_of_mem _ hj)
      split
      · exact ih (cap + 1) h hb'
      · have hs := vivifyAt_ok h (hb ci (by simp)).1 (hb ci (by simp)).2
        revert hs
        cases S.vivifyAt ci with
        | ok S' =>
          rintro ⟨g1, g2, g3⟩
          have := ih cap g1 (by rw [g3.len]; exact hb')
          rw [g2] at this
          exact this
        | unsat S' => exact fun hs => hs
        | panic S' => exact fun hs => hs

/-- The start of every round. -/
theorem start_ok (h : Inv F m S) (he : S.empty = false) (h1 : m ≤ S.nOrig) (h2 : S.nOrig ≤ S.clauses.length) :
    StepOK F m S.n (Kept (fun _ => False) (S.backtrackTo 0)) (S.backtrackTo 0).settle := by
  obtain ⟨g1, g2⟩ := backtrack_inv h 0
  have := settle_ok g1 (by rw [g2.lim]; rfl) (by rw [g2.empty]; exact he) (by rw [g2.nOrig]; exact h1)
    (by rw [g2.nOrig, g2.clauses]; exact h2)
  rw [g2.n] at this
  exact this

theorem vivifyRound_ok (budget : Nat) (h : Inv F m S) (he : S.empty = false) (h1 : m ≤ S.nOrig)
    (h2 : S.nOrig ≤ S.clauses.length) : StepOK F m S.n (fun _ => True) (S.vivifyRound budget) := by
  unfold Solver.vivifyRound
  have hs := start_ok h he h1 h2
  revert hs
  cases (S.backtrackTo 0).settle with
  | unsat S' => exact fun hs => hs
  | panic S' => exact fun hs => hs
  | ok S0 =>
    rintro ⟨g1, g2, _⟩
    simp only
    have := vivifyAll_ok (if budget = 0 then S0.clauses.length else budget)
      ((List.range S0.clauses.length).drop S0.nOrig) g1 (by
        intro ci hci
        rw [List.mem_iff_getElem] at hci
        obtain ⟨j, hj, rfl⟩ := hci
        simp at hj ⊢
        have := g1.mle
        omega)
    rw [g2] at this
    exact this

/-! ## Probing -/

theorem probeLit_ok (h : Top F m S) {p : Lit} (hu : S.value p.var = none) (hr : p.var < S.n) :
    StepOK F m S.n (fun _ => True) (S.probeLit p) := by
  unfold Solver.probeLit
  have hi := h.inv.decide (l := p) hu hr h.fix
  have hp := propagate_ok hi
  have hfix := fun S' => propagate_fix (S' := S') hi
  have ht := (propagate_tame (S := S.decide p) (P := fun _ => True) (fun _ _ _ => trivial)).2
  revert hp hfix ht
  rcases (S.decide p).propagate with ⟨r, S1⟩
  cases r with
  | panic => exact fun hp => hp.elim
  | done =>
    rintro ⟨hi1, hx⟩ hfix ht
    obtain ⟨g1, g2, _⟩ := back_top (S0 := S) hi1.conf (fun _ => ⟨hi1, hfix S1 rfl⟩) hx.n hx.len (hx.empty.trans h.emp)
      hx.nOrig h.mle h.nle ht hx.log
    exact ⟨g1, g2.n, trivial⟩
  | conflict ci =>
    rintro ⟨hc, hf, hx⟩ _ ht
    simp only
    have hne : S1.lim ≠ [] := by
      intro hl
      have := hx.lim
      rw [hl] at this
      have h3 : S.lim ++ [S.trail.length] = [] := this.symm
      simp at h3
    obtain ⟨g1, g2, _, _, g5⟩ := back_top (S0 := S) hc (fun hl => absurd hl hne) hx.n hx.len (hx.empty.trans h.emp)
      hx.nOrig h.mle h.nle ht hx.log
    have hent : UPEnt (F ++ (S1.backtrackTo 0).log) [p.negated] := by
      rw [g5]
      intro P hP hk
      have hpp : P p := by
        have := hk p.negated (by simp)
        rwa [Lit.negated_negated] at this
      have hall : ∀ l ∈ S1.trail, P l := by
        refine hc.core.decisions hP ?_
        intro i hi' l hl
        obtain ⟨t, htr⟩ := hx.pre
        have hi2 : i ∈ S.lim ++ [S.trail.length] := by
          rw [hx.lim] at hi'; exact hi'
        rw [h.lim] at hi2
        simp at hi2; subst hi2
        rw [← htr, List.getElem?_append_left (by show _ < (S.trail ++ [p]).length; simp)] at hl
        have hl' : (S.trail ++ [p])[S.trail.length]? = some l := hl
        simp at hl'
        rw [← hl']; exact hpp
      obtain ⟨d, d1, d2, _⟩ := hf.ex
      exact (hc.core.clsU d (List.mem_of_getElem? d1)).conf P hP fun q hq => hall _ (d2 q hq)
    have happ := (g1.inv.append (c := [p.negated]) (log := (S1.backtrackTo 0).log ++ [[p.negated]]) (.mem (by simp))
      (by intro l hl; simp at hl; subst hl; rw [g2.n]; exact hr) (by simp)
      (by intro l hl hn; simp at hl hn; rw [hl] at hn; exact Lit.negated_ne _ hn)
      ⟨g1.inv.core.logU.snoc hent, fun _ hd => mem_snoc_log hd, by
        intro d hd
        rcases List.mem_append.1 hd with hd | hd
        · exact g1.inv.core.logR d hd
        · simp at hd; subst hd
          intro l hl
          simp at hl; subst hl
          rw [g2.n]; exact hr⟩).1
    have hnle : (S1.backtrackTo 0).nOrig ≤ ((S1.backtrackTo 0).clauses ++ [[p.negated]]).length := by
      have := g1.nle
      rw [List.length_append]; omega
    have hn := g2.n
    revert happ hnle hn g1
    generalize S1.backtrackTo 0 = T
    intro g1 happ hnle hn
    rw [← hn]
    unfold Solver.addRaw
    simp only
    have hget : (T.clauses ++ [[p.negated]])[T.clauses.length]? = some [p.negated] := by simp
    cases hv : T.val p.negated with
    | none =>
      simp only
      have hi2 := happ.enqueue (l := p.negated) (ci := T.clauses.length) ((val_none T _).1 hv) (by
          show p.var < T.n
          rw [hn]; exact hr)
        ⟨[p.negated], hget, by simp, by intro q hq hne; simp at hq; exact absurd hq hne⟩
      rw [if_neg]
      · exact (settle_ok hi2 g1.lim g1.emp g1.mle hnle).mono fun _ _ => trivial
      · show ¬ T.empty = true
        rw [g1.emp]; simp
    | some b =>
      cases b with
      | true =>
        simp only
        rw [if_neg]
        · exact (settle_ok happ g1.lim g1.emp g1.mle hnle).mono fun _ _ => trivial
        · show ¬ T.empty = true
          rw [g1.emp]; simp
      | false =>
        simp only
        rw [if_pos trivial]
        have hu : NoWorld (F ++ (T.log ++ [[p.negated]])) := by
          intro P hP
          refine hP.conf [p.negated] (by simp) fun q hq => ?_
          simp at hq; subst hq
          exact g1.inv.core.zero_allU g1.lim _ ((g1.inv.core.val_false _).1 hv) P
            (hP.mono fun _ hd => mem_snoc_log hd)
        exact ⟨hu, happ.core.setEmpty hu, rfl, happ.orig.orig, g1.mle⟩

theorem probeVar_ok (h : Top F m S) {v : Nat} (hu : S.value v = none) (hr : v < S.n) :
    StepOK F m S.n (fun _ => True) (S.probeVar v) := by
  unfold Solver.probeVar
  have hs := probeLit_ok h (p := ⟨v, true⟩) hu hr
  revert hs
  cases S.probeLit ⟨v, true⟩ with
  | unsat S' => exact fun hs => hs
  | panic S' => exact fun hs => hs
  | ok S1 =>
    rintro ⟨g1, g2, _⟩
    simp only
    split
    · rename_i hv
      have := probeLit_ok g1 (p := ⟨v, false⟩) hv (by rw [g2]; exact hr)
      rw [g2] at this
      exact this
    · exact ⟨g1, g2, trivial⟩

theorem probeAll_ok (cap : Nat) (vs : List Nat) (h : Top F m S) (hb : ∀ v ∈ vs, v < S.n) :
    StepOK F m S.n (fun _ => True) (probeAll cap vs S) := by
  induction vs generalizing cap S with
  | nil => cases cap <;> exact ⟨h, rfl, trivial⟩
  | cons v vs ih =>
    cases cap with
    | zero => exact ⟨h, rfl, trivial⟩
    | succ cap =>
      rw [probeAll]
      have hb' : ∀ u ∈ vs, u < S.n := fun u hu => hb u (List.mem_cons_of_mem _ hu)
      split
      · rename_i hv
        have hs := probeVar_ok h hv (hb v (by simp))
        revert hs
        cases S.probeVar v with
        | ok S' =>
          rintro ⟨g1, g2, _⟩
          have := ih cap g1 (by rw [g2]; exact hb')
          rw [g2] at this
          exact this
        | unsat S' => exact fun hs => hs
        | panic S' => exact fun hs => hs
      · exact ih (cap + 1) h hb'

theorem probeRound_ok (budget : Nat) (h : Inv F m S) (he : S.empty = false) (h1 : m ≤ S.nOrig)
    (h2 : S.nOrig ≤ S.clauses.length) : StepOK F m S.n (fun _ => True) (S.probeRound budget) := by
  unfold Solver.probeRound
  have hs := start_ok h he h1 h2
  revert hs
  cases (S.backtrackTo 0).settle with
  | unsat S' => exact fun hs => hs
  | panic S' => exact fun hs => hs
  | ok S0 =>
    rintro ⟨g1, g2, _⟩
    simp only
    have := probeAll_ok (if budget = 0 then S0.n else budget) (List.range S0.n) g1 (fun v hv => List.mem_range.1 hv)
    rw [← g2]
    exact this

end

end Verif.Sat
