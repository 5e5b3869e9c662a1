import Verif.Sat.CdclAnalyze
/-!
# Backtracking, learning, deciding and clause deletion keep the invariant
-/

namespace Verif.Sat
open Verif.Proof

section
variable {F : List Clause} {m : Nat} {S : Solver}

/-! ## Backtracking -/

/-- The state with only assignment and heap changed. -/
structure Unass (S S' : Solver) (vs : List Lit) : Prop where
  eq : S' = { S with value := S'.value, heap := S'.heap }
  val : ∀ v, S'.value v = if v ∈ vs.map Lit.var then none else S.value v
  heapO : ∀ v, v ∈ S.heap ∨ v ∈ vs.map Lit.var → v ∈ S'.heap
  heapR : ∀ v ∈ S'.heap, v ∈ S.heap ∨ v ∈ vs.map Lit.var

theorem heapInsert_mem {h : List Nat} {u v : Nat} : v ∈ heapInsert h u ↔ v ∈ h ∨ v = u := by
  unfold heapInsert
  split
  · constructor
    · exact .inl
    · rintro (h | rfl) <;> assumption
  · simp

theorem unassign_fold (vs : List Lit) (S : Solver) : Unass S (vs.foldl Solver.unassign S) vs := by
  induction vs generalizing S with
  | nil => exact ⟨rfl, by simp, (fun v h => h.elim id (fun h => by cases h)), fun v h => .inl h⟩
  | cons l vs ih =>
    have h := ih (S.unassign l)
    rw [List.foldl_cons]
    refine ⟨?_, ?_, ?_, ?_⟩
    · have := h.eq
      rw [this]
      rfl
    · intro v
      rw [h.val v]
      show (if v ∈ vs.map Lit.var then none else upd S.value l.var none v) = _
      by_cases e : v = l.var
      · subst e
        rw [upd_same]; simp
      · rw [upd_ne _ _ e]
        simp [e]
    · intro v hv
      apply h.heapO
      show v ∈ heapInsert S.heap l.var ∨ _
      rw [heapInsert_mem]
      rcases hv with hv | hv
      · exact .inl (.inl hv)
      · rw [List.map_cons, List.mem_cons] at hv
        rcases hv with hv | hv
        · exact .inl (.inr hv)
        · exact .inr hv
    · intro v hv
      rcases h.heapR v hv with hv | hv
      · have hv' : v ∈ heapInsert S.heap l.var := hv
        rw [heapInsert_mem] at hv'
        rcases hv' with hv | rfl
        · exact .inl hv
        · exact .inr (by simp)
      · exact .inr (by rw [List.map_cons]; exact List.mem_cons_of_mem _ hv)

/-- What backtracking leaves alone. -/
structure Back (S S' : Solver) (j : Nat) : Prop where
  n : S'.n = S.n
  clauses : S'.clauses = S.clauses
  level : S'.level = S.level
  reason : S'.reason = S.reason
  empty : S'.empty = S.empty
  nOrig : S'.nOrig = S.nOrig
  log : S'.log = S.log
  limit : S'.limit = S.limit
  reduceOn : S'.reduceOn = S.reduceOn
  lim : S'.lim = S.lim.take j
  pre : S'.trail <+: S.trail

theorem Core.take_lim (h : Core F S) {j t : Nat} (hj : S.lim[j]? = some t) {x : Nat} (hx : x ∈ S.lim.take j) : x < t := by
  obtain ⟨k, hk, hx⟩ := mem_take_iff.1 hx
  obtain ⟨h1, rfl⟩ := List.getElem?_eq_some_iff.1 hx
  obtain ⟨h2, rfl⟩ := List.getElem?_eq_some_iff.1 hj
  exact List.pairwise_iff_getElem.1 h.limS k j h1 h2 hk

theorem backtrack_ok (h : Conf F m S) {j : Nat} (hj : j < S.lim.length) :
    Inv F m (S.backtrackTo j) ∧ Back S (S.backtrackTo j) j ∧
      (∀ q ∈ S.trail, S.level q.var ≤ j → q ∈ (S.backtrackTo j).trail) ∧
      (∀ q ∈ S.trail, j < S.level q.var → (S.backtrackTo j).value q.var = none) := by
  obtain ⟨t, ht⟩ : ∃ t, S.lim[j]? = some t := ⟨S.lim[j], by simp⟩
  have hc := h.core
  have hu := unassign_fold (S.trail.drop t).reverse S
  have heq : S.backtrackTo j = { S with
      value := ((S.trail.drop t).reverse.foldl Solver.unassign S).value
      heap := ((S.trail.drop t).reverse.foldl Solver.unassign S).heap
      trail := S.trail.take t
      qhead := t
      lim := S.lim.take j } := by
    unfold Solver.backtrackTo
    rw [ht]
    simp only
    rw [hu.eq]
  rw [heq]
  clear heq
  revert hu
  generalize (S.trail.drop t).reverse.foldl Solver.unassign S = U
  intro hu
  have htm : t ∈ S.lim := List.mem_of_getElem? ht
  have htl : t < S.trail.length := hc.limB t htm
  have htq : t ≤ S.qhead := hc.limQ t htm
  have hget : ∀ {i : Nat} {l : Lit}, (S.trail.take t)[i]? = some l → i < t ∧ S.trail[i]? = some l := by
    intro i l hi
    rw [List.getElem?_take] at hi
    split at hi
    · exact ⟨by assumption, hi⟩
    · cases hi
  have hdrop : ∀ v, v ∈ (S.trail.drop t).reverse.map Lit.var ↔ ∃ i l, t ≤ i ∧ S.trail[i]? = some l ∧ l.var = v := by
    intro v
    rw [List.mem_map]
    constructor
    · rintro ⟨l, hl, rfl⟩
      rw [List.mem_reverse, List.mem_iff_getElem?] at hl
      obtain ⟨i, hi⟩ := hl
      rw [List.getElem?_drop] at hi
      exact ⟨t + i, l, by omega, hi, rfl⟩
    · rintro ⟨i, l, hti, hi, rfl⟩
      refine ⟨l, ?_, rfl⟩
      rw [List.mem_reverse, List.mem_iff_getElem?]
      refine ⟨i - t, ?_⟩
      rw [List.getElem?_drop, show t + (i - t) = i by omega]
      exact hi
  have hval : ∀ v, (∃ i l, t ≤ i ∧ S.trail[i]? = some l ∧ l.var = v) → U.value v = none := by
    intro v hv
    rw [hu.val, if_pos ((hdrop v).2 hv)]
  have hval' : ∀ v, (¬ ∃ i l, t ≤ i ∧ S.trail[i]? = some l ∧ l.var = v) → U.value v = S.value v := by
    intro v hv
    rw [hu.val, if_neg (fun h => hv ((hdrop v).1 h))]
  have hlv : ∀ i < t, lv (S.lim.take j) i = lv S.lim i := fun i hi => lv_take hc.limS ht hi
  refine ⟨⟨?_, ?_, ?_, ?_, ?_⟩, ⟨rfl, rfl, rfl, rfl, rfl, rfl, rfl, rfl, rfl, rfl, List.take_prefix _ _⟩, ?_, ?_⟩
  · refine
      { nodup := hc.take_nodup t, val := ?_, rng := ?_, limS := ?_, limB := ?_, lev := ?_, qle := ?_, limQ := ?_,
        whyN := ?_, whyC := ?_, zeroU := ?_, clsU := hc.clsU, clsR := hc.clsR, clsN := hc.clsN, clsT := hc.clsT, logU := hc.logU, logR := hc.logR,
        empU := hc.empU, heapO := ?_, heapR := ?_ }
    · intro v b
      show U.value v = some b ↔ _ ∈ S.trail.take t
      by_cases hv : ∃ i l, t ≤ i ∧ S.trail[i]? = some l ∧ l.var = v
      · rw [hval v hv]
        constructor
        · intro e; cases e
        · intro hm
          obtain ⟨k, hk, hm⟩ := mem_take_iff.1 hm
          obtain ⟨i, l, hti, hi, e⟩ := hv
          have := hc.idx hm hi e.symm
          omega
      · rw [hval' v hv, hc.val]
        constructor
        · intro hm
          obtain ⟨k, hk⟩ := List.mem_iff_getElem?.1 hm
          refine mem_take_iff.2 ⟨k, ?_, hk⟩
          rcases Nat.lt_or_ge k t with h' | h'
          · exact h'
          · exact absurd ⟨k, _, h', hk, rfl⟩ hv
        · exact List.mem_of_mem_take
    · exact fun l hl => hc.rng l (List.mem_of_mem_take hl)
    · exact hc.limS.sublist (List.take_sublist _ _)
    · intro x hx
      show x < (S.trail.take t).length
      have := hc.take_lim ht hx
      rw [List.length_take]; omega
    · intro i l hi
      obtain ⟨h1, h2⟩ := hget hi
      show S.level l.var = lv (S.lim.take j) i
      rw [hlv i h1]
      exact hc.lev i l h2
    · show t ≤ (S.trail.take t).length
      rw [List.length_take]; omega
    · intro x hx
      exact Nat.le_of_lt (hc.take_lim ht hx)
    · intro i l hi h0 hr
      obtain ⟨h1, h2⟩ := hget hi
      have h0' : 0 < lv (S.lim.take j) i := h0
      rw [hlv i h1] at h0'
      have := hc.whyN i l h2 h0' hr
      obtain ⟨k, hk⟩ := List.mem_iff_getElem?.1 this
      refine mem_take_iff.2 ⟨k, ?_, hk⟩
      rcases Nat.lt_or_ge k j with h' | h'
      · exact h'
      · exfalso
        obtain ⟨hk1, hk2⟩ := List.getElem?_eq_some_iff.1 hk
        obtain ⟨hj1, hj2⟩ := List.getElem?_eq_some_iff.1 ht
        rcases Nat.lt_or_ge j k with h'' | h''
        · have := List.pairwise_iff_getElem.1 hc.limS j k hj1 hk1 h''
          omega
        · have : j = k := by omega
          subst this; omega
    · intro i l ci hi h0 hr
      obtain ⟨h1, h2⟩ := hget hi
      have h0' : 0 < lv (S.lim.take j) i := h0
      rw [hlv i h1] at h0'
      show ∃ c, S.clauses[ci]? = some c ∧ l ∈ c ∧ ∀ q ∈ c, q ≠ l → q.negated ∈ (S.trail.take t).take i
      rw [List.take_take, Nat.min_eq_left (Nat.le_of_lt h1)]
      exact hc.whyC i l ci h2 h0' hr
    · intro i l hi h0
      obtain ⟨h1, h2⟩ := hget hi
      have h0' : lv (S.lim.take j) i = 0 := h0
      rw [hlv i h1] at h0'
      exact hc.zeroU i l h2 h0'
    · intro v hv hn
      apply hu.heapO
      by_cases hv' : ∃ i l, t ≤ i ∧ S.trail[i]? = some l ∧ l.var = v
      · exact .inr ((hdrop v).2 hv')
      · have hn' : U.value v = none := hn
        rw [hval' v hv'] at hn'
        exact .inl (hc.heapO v hv hn')
    · intro v hv
      rcases hu.heapR v hv with h' | h'
      · exact hc.heapR v h'
      · obtain ⟨i, l, _, hi, rfl⟩ := (hdrop v).1 h'
        exact hc.rng l (List.mem_of_getElem? hi)
  · refine ⟨h.orig.orig, h.orig.mle, ?_, h.orig.emp⟩
    intro ci hci l hl he
    obtain ⟨i, hi, h0⟩ := h.orig.unit ci hci l hl he
    have hit : i < t := by
      rcases Nat.lt_or_ge i t with h' | h'
      · exact h'
      · have := lv_gt_of hc.limS ht h'
        omega
    refine ⟨i, ?_, ?_⟩
    · show (S.trail.take t)[i]? = some l
      rw [List.getElem?_take, if_pos hit]; exact hi
    · show lv (S.lim.take j) i = 0
      rw [hlv i hit]; exact h0
  · exact h.wat
  · exact h.watO
  · intro ci hci c hcl h2 f hf _ i hi htr
    have hi' : i < t := hi
    obtain ⟨_, htr'⟩ := hget htr
    have hlev := hc.lev i _ htr'
    have hle : lv S.lim i ≤ j := lv_lt_of hc.limS ht hi'
    have hfl : S.level f.var ≤ j := by
      have : S.level f.var = lv S.lim i := hlev
      omega
    obtain ⟨q, q1, q2, q3⟩ := h.w1 ci hci c hcl h2 f hf (by intro e; omega) i (by omega) htr'
    refine ⟨q, q1, ?_, q3⟩
    obtain ⟨k, hk⟩ := List.mem_iff_getElem?.1 q2
    refine mem_take_iff.2 ⟨k, ?_, hk⟩
    rcases Nat.lt_or_ge k t with h' | h'
    · exact h'
    · have g1 := lv_gt_of hc.limS ht h'
      have g2 := hc.lev k q hk
      omega
  · intro q hq hl
    obtain ⟨k, hk⟩ := List.mem_iff_getElem?.1 hq
    refine mem_take_iff.2 ⟨k, ?_, hk⟩
    rcases Nat.lt_or_ge k t with h' | h'
    · exact h'
    · have g1 := lv_gt_of hc.limS ht h'
      have g2 := hc.lev k q hk
      omega
  · intro q hq hl
    obtain ⟨k, hk⟩ := List.mem_iff_getElem?.1 hq
    refine hval _ ⟨k, q, ?_, hk, rfl⟩
    rcases Nat.lt_or_ge k t with h' | h'
    · have g1 := lv_lt_of hc.limS ht h'
      have g2 := hc.lev k q hk
      omega
    · exact h'

theorem Back.refl (S : Solver) (j : Nat) (hj : S.lim.length ≤ j) : Back S S j :=
  ⟨rfl, rfl, rfl, rfl, rfl, rfl, rfl, rfl, rfl, (List.take_of_length_le hj).symm, List.prefix_refl _⟩

theorem backtrack_inv (h : Inv F m S) (j : Nat) : Inv F m (S.backtrackTo j) ∧ Back S (S.backtrackTo j) j := by
  rcases Nat.lt_or_ge j S.lim.length with hj | hj
  · have := backtrack_ok h.conf hj
    exact ⟨this.1, this.2.1⟩
  · have : S.backtrackTo j = S := by
      unfold Solver.backtrackTo
      rw [List.getElem?_eq_none hj]
    rw [this]
    exact ⟨h, Back.refl S j hj⟩

/-! ## Adding a clause -/

/-- The state with a clause appended. -/
def appendClause (S : Solver) (c : List Lit) (log : List (List Lit)) (W : Lit → List Watcher) : Solver :=
  { S with clauses := S.clauses ++ [c], log := log, watches := W }

/-- The log gained derived clauses. -/
def Grows (F : List Clause) (n : Nat) (log log' : List Clause) : Prop :=
  Derived F log' ∧ (∀ d ∈ F ++ log, d ∈ F ++ log') ∧ ∀ d ∈ log', ∀ l ∈ d, l.var < n

theorem Core.append (h : Core F S) {c : Clause} {log : List (List Lit)} {W : Lit → List Watcher}
    (hc : Acts (F ++ log) c) (hr : ∀ l ∈ c, l.var < S.n) (hn : c.Nodup)
    (htt : ∀ l ∈ c, l.negated ∉ c) (hlog : Grows F S.n S.log log) :
    Core F (appendClause S c log W) := by
  have hmem : ∀ d ∈ S.clauses ++ [c], d ∈ S.clauses ∨ d = c := by
    intro d hd
    rcases List.mem_append.1 hd with h | h
    · exact .inl h
    · simp at h; exact .inr h
  refine
    { nodup := h.nodup, val := h.val, rng := h.rng, limS := h.limS, limB := h.limB, lev := h.lev,
      qle := h.qle, limQ := h.limQ, whyN := h.whyN, whyC := ?_, zeroU := ?_, clsU := ?_, clsR := ?_,
      clsN := ?_, clsT := ?_, logU := hlog.1, logR := hlog.2.2, empU := fun e => (h.empU e).mono hlog.2.1, heapO := h.heapO, heapR := h.heapR }
  · intro i l ci hi h0 hre
    obtain ⟨d, hd, h1, h2⟩ := h.whyC i l ci hi h0 hre
    exact ⟨d, getElem?_snoc.2 (.inl hd), h1, h2⟩
  · intro i l hi h0 P hP
    exact h.zeroU i l hi h0 P (hP.mono hlog.2.1)
  · intro d hd
    rcases hmem d hd with hd | rfl
    · exact (h.clsU d hd).mono hlog.2.1
    · exact hc
  · intro d hd
    rcases hmem d hd with hd | rfl
    · exact h.clsR d hd
    · exact hr
  · intro d hd
    rcases hmem d hd with hd | rfl
    · exact h.clsN d hd
    · exact hn
  · intro d hd
    rcases hmem d hd with hd | rfl
    · exact h.clsT d hd
    · exact htt

theorem OrigOK.append (h : OrigOK F m S) {c : Clause} {log : List (List Lit)} {W : Lit → List Watcher} :
    OrigOK F m (appendClause S c log W) := by
  have hold : ∀ {ci : Nat} {d : Clause}, ci < m → (S.clauses ++ [c])[ci]? = some d → S.clauses[ci]? = some d := by
    intro ci d hci hd
    rcases getElem?_snoc.1 hd with hd | ⟨e, _⟩
    · exact hd
    · have := h.mle; omega
  refine ⟨?_, ?_, ?_, ?_⟩
  · intro d hd
    rcases h.orig d hd with h1 | ⟨ci, hci, d', hd', hs⟩
    · exact .inl h1
    · exact .inr ⟨ci, hci, d', getElem?_snoc.2 (.inl hd'), hs⟩
  · have := h.mle
    show m ≤ (S.clauses ++ [c]).length
    simp; omega
  · intro ci hci l hl he
    exact h.unit ci hci l (hold hci hl) he
  · intro ci hci hd
    exact h.emp ci hci (hold hci hd)

theorem Wat.append {cs : List Clause} {W : Lit → List Watcher} (h : Wat cs W) (c : Clause) : Wat (cs ++ [c]) W := by
  refine ⟨?_, h.uniq⟩
  intro l w hw
  obtain ⟨d, h1, h2⟩ := h.ok l w hw
  exact ⟨d, getElem?_snoc.2 (.inl h1), h2⟩

theorem pushWatch_at {W : Lit → List Watcher} {ci : Nat} {a b : Lit} {bin : Bool} (hab : a ≠ b) (l : Lit) :
    pushWatch W ci a b bin l =
      W l ++ (if l = a then [⟨ci, b, bin⟩] else if l = b then [⟨ci, a, bin⟩] else []) := by
  show upd (upd W a (W a ++ [⟨ci, b, bin⟩])) b (upd W a (W a ++ [⟨ci, b, bin⟩]) b ++ [⟨ci, a, bin⟩]) l = _
  by_cases e : l = b
  · subst e
    rw [upd_same, upd_ne _ _ (Ne.symm hab), if_neg (Ne.symm hab), if_pos rfl]
  · rw [upd_ne _ _ e]
    by_cases e' : l = a
    · subst e'; rw [upd_same, if_pos rfl]
    · rw [upd_ne _ _ e', if_neg e', if_neg e, List.append_nil]

/-- Watching the clause `ci` by its first two literals. -/
theorem Wat.push {cs : List Clause} {W : Lit → List Watcher} (h : Wat cs W) {ci : Nat} {a b : Lit} {rest : List Lit}
    (hc : cs[ci]? = some (a :: b :: rest)) (hab : a ≠ b) (hnew : ∀ l, ∀ w ∈ W l, w.clause ≠ ci) :
    Wat cs (pushWatch W ci a b (rest.length + 2 == 2)) := by
  refine ⟨?_, ?_⟩
  · intro l w hw
    rw [pushWatch_at hab, List.mem_append] at hw
    rcases hw with hw | hw
    · exact h.ok l w hw
    · refine ⟨a :: b :: rest, ?_⟩
      split at hw
      · rename_i e
        subst e
        simp at hw; subst hw
        refine ⟨hc, by simp, by simp, by simp, ?_⟩
        intro hb q hq
        have : rest = [] := by
          have hb' : (rest.length == 0) = true := hb
          simp at hb'; exact hb'
        subst this
        simpa using hq
      · split at hw
        · rename_i e
          subst e
          simp at hw; subst hw
          refine ⟨hc, by simp, by simp, by simp, ?_⟩
          intro hb q hq
          have : rest = [] := by
            have hb' : (rest.length == 0) = true := hb
            simp at hb'; exact hb'
          subst this
          simp at hq
          exact hq.symm
        · cases hw
  · intro l
    rw [pushWatch_at hab, List.map_append, List.nodup_append]
    refine ⟨h.uniq l, ?_, ?_⟩
    · split
      · simp
      · split <;> simp
    · intro x hx y hy
      obtain ⟨w, hw, rfl⟩ := List.mem_map.1 hx
      have : y = ci := by
        split at hy
        · simpa using hy
        · split at hy
          · simpa using hy
          · cases hy
      subst this
      exact hnew l w hw

theorem push_mem {W : Lit → List Watcher} {ci : Nat} {a b : Lit} {bin : Bool} (hab : a ≠ b) {l : Lit} {w : Watcher}
    (hw : w ∈ W l) : w ∈ pushWatch W ci a b bin l := by
  rw [pushWatch_at hab]
  exact List.mem_append_left _ hw

theorem push_new {W : Lit → List Watcher} {ci : Nat} {a b : Lit} {bin : Bool} (hab : a ≠ b) {l : Lit}
    (hl : l = a ∨ l = b) : ∃ w ∈ pushWatch W ci a b bin l, w.clause = ci := by
  rcases hl with rfl | rfl
  · exact ⟨⟨ci, b, bin⟩, by rw [pushWatch_at hab, if_pos rfl]; simp, rfl⟩
  · exact ⟨⟨ci, a, bin⟩, by rw [pushWatch_at hab, if_neg (Ne.symm hab), if_pos rfl]; simp, rfl⟩

theorem Wat.bound {cs : List Clause} {W : Lit → List Watcher} (h : Wat cs W) : ∀ l, ∀ w ∈ W l, w.clause ≠ cs.length := by
  intro l w hw e
  obtain ⟨c, hc, _⟩ := h.ok l w hw
  have := (List.getElem?_eq_some_iff.1 hc).1
  omega

/-- Appending an entailed clause that does not belong to the first `m`. -/
theorem Inv.append (h : Inv F m S) {c : Clause} {log : List (List Lit)} (hc : Acts (F ++ log) c)
    (hr : ∀ l ∈ c, l.var < S.n) (hn : c.Nodup)
    (htt : ∀ l ∈ c, l.negated ∉ c) (hlog : Grows F S.n S.log log) :
    Inv F m (appendClause S c log S.watches) ∧
      ∀ a b rest, c = a :: b :: rest →
        Inv F m (appendClause S c log (pushWatch S.watches S.clauses.length a b (rest.length + 2 == 2))) := by
  have hold : ∀ {ci : Nat} {d : Clause}, ci < m → (S.clauses ++ [c])[ci]? = some d → S.clauses[ci]? = some d := by
    intro ci d hci hd
    rcases getElem?_snoc.1 hd with hd | ⟨e, _⟩
    · exact hd
    · have := h.orig.mle; omega
  constructor
  · refine ⟨h.core.append hc hr hn htt hlog, h.orig.append, h.wat.append c, ?_, ?_⟩
    · intro ci hci d hd
      exact h.watO ci hci d (hold hci hd)
    · intro ci hci d hd
      exact h.w1 ci hci d (hold hci hd)
  · rintro a b rest rfl
    have hab : a ≠ b := by
      intro e; subst e; simp at hn
    refine ⟨h.core.append hc hr hn htt hlog, h.orig.append, ?_, ?_, ?_⟩
    · exact (h.wat.append _).push (getElem?_snoc.2 (.inr ⟨rfl, rfl⟩)) hab h.wat.bound
    · intro ci hci d hd h2 l hl
      obtain ⟨w, hw, e⟩ := h.watO ci hci d (hold hci hd) h2 l hl
      exact ⟨w, push_mem hab hw, e⟩
    · intro ci hci d hd
      exact h.w1 ci hci d (hold hci hd)

theorem Inv.enqueue (h : Inv F m S) {l : Lit} {ci : Nat} (hu : S.value l.var = none) (hr : l.var < S.n)
    (hc : ∃ c, S.clauses[ci]? = some c ∧ l ∈ c ∧ ∀ q ∈ c, q ≠ l → q.negated ∈ S.trail) :
    Inv F m (S.enqueue l (some ci)) :=
  ⟨h.core.enqueue hu hr hc, h.orig.enqueue l _, h.wat, h.watO, h.w1.enqueue h.core hu⟩

theorem Inv.decide (h : Inv F m S) {l : Lit} (hu : S.value l.var = none) (hr : l.var < S.n)
    (hq : S.qhead = S.trail.length) : Inv F m (S.decide l) := by
  refine ⟨h.core.decide hu hr hq, h.orig.decide l, h.wat, h.watO, ?_⟩
  have hfresh := h.core.unset.1 hu
  intro ci hci c hc h2 f hf hex i hi ht
  have hi' : i < S.qhead := hi
  have ht' : (S.trail ++ [l])[i]? = some f.negated := ht
  rcases getElem?_snoc.1 ht' with ht' | ⟨e, _⟩
  · obtain ⟨t, t1, t2, t3⟩ := h.w1 ci hci c hc h2 f hf hex i hi' ht'
    refine ⟨t, t1, List.mem_append_left _ t2, ?_⟩
    show upd S.level l.var _ t.var ≤ upd S.level l.var _ f.var
    rw [upd_ne _ _ (hfresh t t2)]
    have : f.var ≠ l.var := fun e => hfresh f.negated (List.mem_of_getElem? ht') e
    rw [upd_ne _ _ this]
    exact t3
  · have := h.core.qle
    omega

/-! ## Learning -/

/-- What learning from a conflict does. -/
structure LearnOK (F : List Clause) (m : Nat) (S S' : Solver) : Prop where
  inv : Inv F m S'
  n : S'.n = S.n
  empty : S'.empty = S.empty
  nOrig : S'.nOrig = S.nOrig
  limit : S'.limit = S.limit
  reduceOn : S'.reduceOn = S.reduceOn
  len : S'.clauses.length = S.clauses.length + 1
  why : ∀ v ci, S'.reason v = some ci → S.reason v = some ci ∨ ci ≤ S.clauses.length
  lim : ∃ j, S'.lim = S.lim.take j
  pre : ∃ t l, t <+: S.trail ∧ S'.trail = t ++ [l] ∧ ∀ x ∈ S'.lim, x < t.length
  back : ∃ j t, S.lim[j]? = some t ∧ S'.lim = S.lim.take j ∧ S'.trail.length = t + 1

theorem learn_ok (h : Conf F m S) (hl : S.lim ≠ []) {ci : Nat} (hf : Falsified S ci) :
    ∃ S', S.learn ci = some S' ∧ LearnOK F m S S' := by
  have hpos : 0 < S.lim.length := List.length_pos_iff.2 hl
  obtain ⟨a, rest, bj, ha, hL⟩ := analyze_ok h.core hpos hf
  obtain ⟨hB, hBk, hkeep, hgone⟩ := backtrack_ok h hL.bj
  unfold Solver.learn
  rw [ha]
  simp only
  have hun : (S.backtrackTo bj).value a.var = none := hgone a.negated hL.af (by
    show bj < S.level a.var
    rw [hL.alev]; exact hL.bj)
  have hr : ∀ l ∈ a :: rest, l.var < (S.backtrackTo bj).n := by
    rw [hBk.n]
    intro l hl
    rcases List.mem_cons.1 hl with rfl | hl
    · exact h.core.rng l.negated hL.af
    · exact h.core.rng l.negated (hL.rf l hl).1
  have hlog : Grows F (S.backtrackTo bj).n (S.backtrackTo bj).log ((S.backtrackTo bj).log ++ [a :: rest]) := by
    refine ⟨hB.core.logU.snoc ?_, fun d hd => mem_snoc_log hd, ?_⟩
    · rw [hBk.log]
      exact hL.ent
    · intro d hd
      rcases List.mem_append.1 hd with hd | hd
      · exact hB.core.logR d hd
      · simp at hd; rw [hd]; exact hr
  obtain ⟨hA1, hA2⟩ := hB.append (.mem (by simp)) hr hL.nodup (by
    have hfal : ∀ l ∈ a :: rest, l.negated ∈ S.trail := by
      intro l hl
      rcases List.mem_cons.1 hl with rfl | hl
      · exact hL.af
      · exact (hL.rf l hl).1
    intro l hl hn
    exact h.core.not_both (hfal l hl) (hfal _ hn)) hlog
  have hother : ∀ q ∈ a :: rest, q ≠ a → q.negated ∈ (S.backtrackTo bj).trail := by
    intro q hq hne
    rcases List.mem_cons.1 hq with rfl | hq
    · exact absurd rfl hne
    · exact hkeep q.negated (hL.rf q hq).1 (hL.rf q hq).2.2
  have hwhy : ∀ v ci, upd (S.backtrackTo bj).reason a.var (some (S.backtrackTo bj).clauses.length) v = some ci →
      S.reason v = some ci ∨ ci ≤ S.clauses.length := by
    intro v ci hv
    by_cases e : v = a.var
    · subst e
      rw [upd_same, hBk.clauses] at hv
      cases hv
      exact .inr (Nat.le_refl _)
    · rw [upd_ne _ _ e, hBk.reason] at hv
      exact .inl hv
  have hlen : ((S.backtrackTo bj).clauses ++ [a :: rest]).length = S.clauses.length + 1 := by
    rw [hBk.clauses]; simp
  have hback : ∃ j t, S.lim[j]? = some t ∧ (S.backtrackTo bj).lim = S.lim.take j ∧
      ((S.backtrackTo bj).trail ++ [a]).length = t + 1 := by
    obtain ⟨t, ht⟩ : ∃ t, S.lim[bj]? = some t := ⟨S.lim[bj]'hL.bj, by simp [hL.bj]⟩
    refine ⟨bj, t, ht, hBk.lim, ?_⟩
    have hb := h.core.limB t (List.mem_of_getElem? ht)
    unfold Solver.backtrackTo
    rw [ht]
    simp only [List.length_append, List.length_take, List.length_singleton]
    omega
  cases rest with
  | nil =>
    have heq : (S.backtrackTo bj).addRaw [a] true =
        (appendClause (S.backtrackTo bj) [a] ((S.backtrackTo bj).log ++ [[a]]) (S.backtrackTo bj).watches).enqueue a
          (some (S.backtrackTo bj).clauses.length) := by
      unfold Solver.addRaw
      have : (S.backtrackTo bj).val a = none := (val_none _ _).2 hun
      simp only [this]
      rfl
    refine ⟨_, rfl, ?_⟩
    rw [heq]
    exact ⟨hA1.enqueue hun (hr a (by simp)) ⟨[a], getElem?_snoc.2 (.inr ⟨rfl, rfl⟩), by simp,
        fun q hq hne => by simp at hq; exact absurd hq hne⟩,
      hBk.n, hBk.empty, hBk.nOrig, hBk.limit, hBk.reduceOn, hlen, hwhy, ⟨bj, hBk.lim⟩,
      ⟨(S.backtrackTo bj).trail, a, hBk.pre, rfl, hB.core.limB⟩, hback⟩
  | cons b rest =>
    refine ⟨_, rfl, ?_⟩
    exact ⟨(hA2 a b rest rfl).enqueue hun (hr a (by simp)) ⟨a :: b :: rest, getElem?_snoc.2 (.inr ⟨rfl, rfl⟩), by simp,
        fun q hq hne => hother q hq hne⟩,
      hBk.n, hBk.empty, hBk.nOrig, hBk.limit, hBk.reduceOn, hlen, hwhy, ⟨bj, hBk.lim⟩,
      ⟨(S.backtrackTo bj).trail, a, hBk.pre, rfl, hB.core.limB⟩, hback⟩

/-! ## Choosing a variable -/

theorem Core.setHeap (h : Core F S) {hp : List Nat} (hO : ∀ v < S.n, S.value v = none → v ∈ hp)
    (hR : ∀ v ∈ hp, v < S.n) : Core F { S with heap := hp } :=
  { nodup := h.nodup, val := h.val, rng := h.rng, limS := h.limS, limB := h.limB, lev := h.lev,
    qle := h.qle, limQ := h.limQ, whyN := h.whyN, whyC := h.whyC, zeroU := h.zeroU, clsU := h.clsU,
    clsR := h.clsR, clsN := h.clsN, clsT := h.clsT, logU := h.logU, logR := h.logR, empU := h.empU, heapO := hO, heapR := hR }

theorem Inv.setHeap (h : Inv F m S) {hp : List Nat} (hO : ∀ v < S.n, S.value v = none → v ∈ hp)
    (hR : ∀ v ∈ hp, v < S.n) : Inv F m { S with heap := hp } :=
  ⟨h.core.setHeap hO hR, ⟨h.orig.orig, h.orig.mle, h.orig.unit, h.orig.emp⟩, h.wat, h.watO, h.w1⟩

theorem heapPop_mem {pop : List Nat → Nat} {h h' : List Nat} {v : Nat} (e : heapPop pop h = some (v, h')) :
    v ∈ h ∧ (∀ u, u ∈ h → u ≠ v → u ∈ h') ∧ (∀ u ∈ h', u ∈ h) ∧ h'.length + 1 = h.length := by
  unfold heapPop at e
  cases hx : h[pop h % h.length]? with
  | none => rw [hx] at e; cases e
  | some x =>
    rw [hx] at e
    simp only [Option.some.injEq, Prod.mk.injEq] at e
    obtain ⟨rfl, rfl⟩ := e
    obtain ⟨hlt, hxe⟩ := List.getElem?_eq_some_iff.1 hx
    refine ⟨List.mem_of_getElem? hx, ?_, ?_, ?_⟩
    · intro u hu hne
      obtain ⟨i, hi, e⟩ := List.mem_iff_getElem.1 hu
      rw [List.mem_eraseIdx_iff_getElem]
      refine ⟨i, hi, ?_, e⟩
      intro e'
      subst e'
      exact hne (e.symm.trans hxe)
    · intro u hu
      exact List.mem_of_mem_eraseIdx hu
    · rw [List.length_eraseIdx_of_lt hlt]; omega

/-- The outcome of choosing a branching variable. -/
theorem pickLoop_ok {pop : List Nat → Nat} {k : Nat} (h : Inv F m S) (hk : S.heap.length < k) :
    ∃ hp, (pickLoop pop k S).2 = { S with heap := hp } ∧ (∀ v ∈ hp, v < S.n) ∧
      match (pickLoop pop k S).1 with
      | none => ∀ v < S.n, S.value v ≠ none
      | some v => v < S.n ∧ S.value v = none ∧ ∀ u < S.n, S.value u = none → u ≠ v → u ∈ hp := by
  induction k generalizing S with
  | zero => omega
  | succ k ih =>
    rw [pickLoop]
    cases hpop : heapPop pop S.heap with
    | none =>
      refine ⟨S.heap, rfl, h.core.heapR, ?_⟩
      intro v hv hn
      have := h.core.heapO v hv hn
      unfold heapPop at hpop
      cases hx : S.heap[pop S.heap % S.heap.length]? with
      | none =>
        rw [List.getElem?_eq_none_iff] at hx
        have hl := List.length_pos_of_mem this
        have := Nat.mod_lt (pop S.heap) hl
        omega
      | some x => rw [hx] at hpop; cases hpop
    | some r =>
      obtain ⟨v, hp⟩ := r
      obtain ⟨h1, h2, h3, h4⟩ := heapPop_mem hpop
      simp only
      by_cases hv : S.value v = none
      · rw [if_pos hv]
        refine ⟨hp, rfl, fun u hu => h.core.heapR u (h3 u hu), h.core.heapR v h1, hv, ?_⟩
        intro u hu hn hne
        exact h2 u (h.core.heapO u hu hn) hne
      · rw [if_neg hv]
        have hinv : Inv F m { S with heap := hp } := h.setHeap
          (fun u hu hn => h2 u (h.core.heapO u hu hn) (fun e => hv (e ▸ hn)))
          (fun u hu => h.core.heapR u (h3 u hu))
        obtain ⟨hp', e1, e2, e3⟩ := ih hinv (by show hp.length < k; omega)
        exact ⟨hp', e1, e2, e3⟩

end

end Verif.Sat
