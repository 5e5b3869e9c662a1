import Verif.Lsp.LineIndex

/-! # Lemmas about `LineIndex` -/
namespace Verif.Lsp

theorem blen_append (a b : List Char) : blen (a ++ b) = blen a + blen b := by
  induction a with
  | nil => simp [blen]
  | cons c a ih => simp [blen, ih, Nat.add_assoc]

theorem ulen_append (a b : List Char) : ulen (a ++ b) = ulen a + ulen b := by
  induction a with
  | nil => simp [ulen]
  | cons c a ih => simp [ulen, ih, Nat.add_assoc]

theorem dropBytes_append (a b : List Char) : dropBytes (blen a) (a ++ b) = some b := by
  induction a with
  | nil => cases b <;> rfl
  | cons c a ih =>
    have hc := Char.utf8Size_pos c
    obtain ⟨k, hk⟩ : ∃ k, blen (c :: a) = k + 1 := ⟨blen (c :: a) - 1, by simp only [blen]; omega⟩
    rw [hk, List.cons_append, dropBytes, ← hk]
    simp only [blen, Nat.not_lt.2 (Nat.le_add_right _ _), if_false, Nat.add_sub_cancel_left]
    exact ih

theorem takeBytes_append (a b : List Char) : takeBytes (blen a) (a ++ b) = some a := by
  induction a with
  | nil => cases b <;> rfl
  | cons c a ih =>
    have hc := Char.utf8Size_pos c
    obtain ⟨k, hk⟩ : ∃ k, blen (c :: a) = k + 1 := ⟨blen (c :: a) - 1, by simp only [blen]; omega⟩
    rw [hk, List.cons_append, takeBytes, ← hk]
    simp only [blen, Nat.not_lt.2 (Nat.le_add_right _ _), if_false, Nat.add_sub_cancel_left]
    rw [ih]; rfl

theorem slice_append (a b c : List Char) : slice (a ++ b ++ c) (blen a) (blen (a ++ b)) = some b := by
  unfold slice
  rw [blen_append]
  rw [if_neg (by omega), List.append_assoc, dropBytes_append]
  simp only [Option.bind_some, Nat.add_sub_cancel_left]
  exact takeBytes_append b c

theorem startsFrom_shift (o k : Nat) (cs : List Char) :
    startsFrom (o + k) cs = (startsFrom o cs).map (· + k) := by
  induction cs generalizing o with
  | nil => rfl
  | cons c cs ih =>
    simp only [startsFrom]
    rw [show o + k + c.utf8Size = (o + c.utf8Size) + k by omega, ih]
    split <;> simp

theorem startsFrom_append (o : Nat) (a b : List Char) :
    startsFrom o (a ++ b) = startsFrom o a ++ startsFrom (o + blen a) b := by
  induction a generalizing o with
  | nil => simp [startsFrom, blen]
  | cons c a ih =>
    simp only [List.cons_append, startsFrom, blen]
    rw [ih, show o + c.utf8Size + blen a = o + (c.utf8Size + blen a) by omega]
    split <;> simp

theorem startsFrom_gt {o x : Nat} {cs : List Char} (h : x ∈ startsFrom o cs) : o < x := by
  induction cs generalizing o with
  | nil => simp [startsFrom] at h
  | cons c cs ih =>
    have hc := Char.utf8Size_pos c
    simp only [startsFrom] at h
    split at h
    · rcases List.mem_cons.1 h with rfl | h
      · omega
      · have := ih h; omega
    · have := ih h; omega

theorem startsFrom_le {o x : Nat} {cs : List Char} (h : x ∈ startsFrom o cs) : x ≤ o + blen cs := by
  induction cs generalizing o with
  | nil => simp [startsFrom] at h
  | cons c cs ih =>
    simp only [startsFrom] at h
    simp only [blen]
    split at h
    · rcases List.mem_cons.1 h with rfl | h
      · omega
      · have := ih h; omega
    · have := ih h; omega

theorem startsFrom_length (o : Nat) (cs : List Char) : (startsFrom o cs).length = cs.count '\n' := by
  induction cs generalizing o with
  | nil => rfl
  | cons c cs ih =>
    simp only [startsFrom]
    split
    · rename_i h; subst h; simp [ih]
    · rename_i h; rw [ih, List.count_cons_of_ne (by simpa using h)]

theorem startsFrom_none {o : Nat} {cs : List Char} (h : '\n' ∉ cs) : startsFrom o cs = [] := by
  have := startsFrom_length o cs
  rw [List.count_eq_zero_of_not_mem h] at this
  exact List.eq_nil_of_length_eq_zero this

theorem startsUpTo_append (pre suf : List Char) :
    startsUpTo (lineStarts (pre ++ suf)) (blen pre) = pre.count '\n' + 1 := by
  unfold startsUpTo lineStarts
  rw [startsFrom_append, List.takeWhile_cons_of_pos (by simp), List.takeWhile_append]
  have h1 : (startsFrom 0 pre).takeWhile (fun x => decide (x ≤ blen pre)) = startsFrom 0 pre := by
    have key : ∀ l : List Nat, (∀ x ∈ l, x ≤ blen pre) →
        l.takeWhile (fun x => decide (x ≤ blen pre)) = l := by
      intro l hl
      induction l with
      | nil => rfl
      | cons x l ih =>
        rw [List.takeWhile_cons_of_pos (by simpa using hl x (by simp)),
          ih fun y hy => hl y (by simp [hy])]
    refine key _ fun x hx => ?_
    have := startsFrom_le hx
    omega
  have h2 : (startsFrom (0 + blen pre) suf).takeWhile (fun x => decide (x ≤ blen pre)) = [] := by
    cases hs : startsFrom (0 + blen pre) suf with
    | nil => rfl
    | cons x xs =>
      have : 0 + blen pre < x := startsFrom_gt (cs := suf) (by rw [hs]; simp)
      rw [List.takeWhile_cons_of_neg]
      simp; omega
  rw [h1, if_pos rfl, h2]
  simp [startsFrom_length]

/-- The start of the line a prefix ends in. -/
theorem lineStart_append (l t suf : List Char) (hl : l = [] ∨ l.getLast? = some '\n')
    (ht : '\n' ∉ t) : (lineStarts (l ++ t ++ suf))[(l ++ t).count '\n']? = some (blen l) := by
  have hcount : (l ++ t).count '\n' = l.count '\n' := by
    simp [List.count_eq_zero_of_not_mem ht]
  rw [hcount]
  rcases hl with rfl | hl
  · simp [lineStarts, blen]
  · obtain ⟨l', rfl⟩ : ∃ l', l = l' ++ ['\n'] := by
      rcases List.eq_nil_or_concat l with rfl | ⟨l', c, rfl⟩
      · simp at hl
      · simp at hl; subst hl; exact ⟨l', by simp⟩
    unfold lineStarts
    have : ((l' ++ ['\n'] ++ t ++ suf)) = l' ++ ('\n' :: (t ++ suf)) := by simp
    rw [this, startsFrom_append]
    simp only [List.count_append, List.count_singleton, beq_self_eq_true, if_true,
      List.getElem?_cons_succ]
    rw [List.getElem?_append_right (by rw [startsFrom_length]; exact Nat.le_refl _), startsFrom_length, Nat.sub_self]
    simp [startsFrom, blen_append, blen]

/-- Where the line after a prefix ends. -/
theorem lineStop_append (l t u : List Char) :
    (lineStarts (l ++ t ++ '\n' :: u))[(l ++ t).count '\n' + 1]? = some (blen (l ++ t ++ ['\n'])) := by
  have := lineStart_append (l ++ t ++ ['\n']) [] u (.inr (by simp)) (by simp)
  simpa [Nat.add_assoc] using this

theorem scan_append (target : Nat) : ∀ (a b : List Char) (i u : Nat), u + ulen a ≤ target →
    (∀ c ∈ a, 0 < units c) → scan target i u (a ++ b) = scan target (i + blen a) (u + ulen a) b
  | [], b, i, u, _, _ => by simp [blen, ulen]
  | c :: a, b, i, u, h, hp => by
    have hc := hp c (by simp)
    simp only [ulen] at h
    simp only [List.cons_append, scan, blen, ulen]
    rw [if_neg (by omega), scan_append target a b _ _ (by omega) (fun c hc => hp c (by simp [hc]))]
    congr 1 <;> omega

theorem units_pos (c : Char) : 0 < units c := by
  unfold units; split <;> omega

theorem scan_hit (target i u : Nat) (c : Char) (cs : List Char) (h : u ≥ target) :
    scan target i u (c :: cs) = some i := by simp [scan, h]

/-- What a scan finds is the end of a prefix. -/
theorem scan_prefix (target : Nat) : ∀ (cs : List Char) (i u j : Nat), scan target i u cs = some j →
    ∃ a b, cs = a ++ b ∧ j = i + blen a
  | [], i, u, j, h => by simp [scan] at h
  | c :: cs, i, u, j, h => by
    simp only [scan] at h
    split at h
    · cases h; exact ⟨[], c :: cs, rfl, by simp [blen]⟩
    · obtain ⟨a, b, rfl, rfl⟩ := scan_prefix target cs _ _ j h
      exact ⟨c :: a, b, rfl, by simp [blen, Nat.add_assoc]⟩


theorem split_newline : ∀ r : List Char, '\n' ∈ r → ∃ s u, r = s ++ '\n' :: u ∧ '\n' ∉ s
  | [], h => by simp at h
  | c :: r, h => by
    by_cases hc : c = '\n'
    · subst hc; exact ⟨[], r, rfl, by simp⟩
    · have hr : '\n' ∈ r := by
        rcases List.mem_cons.1 h with h' | h'
        · exact absurd h'.symm hc
        · exact h'
      obtain ⟨s, u, rfl, hs⟩ := split_newline r hr
      refine ⟨c :: s, u, rfl, ?_⟩
      intro h'
      rcases List.mem_cons.1 h' with h' | h'
      · exact hc h'.symm
      · exact hs h'

/-- Every line number that occurs has a place where its line starts. -/
theorem split_line (cs : List Char) : ∀ line, line ≤ cs.count '\n' →
    ∃ l r, cs = l ++ r ∧ l.count '\n' = line ∧ (l = [] ∨ l.getLast? = some '\n')
  | 0, _ => ⟨[], cs, rfl, rfl, .inl rfl⟩
  | line + 1, h => by
    obtain ⟨l, r, rfl, hl, _⟩ := split_line cs line (by omega)
    have hr : '\n' ∈ r := by
      rw [List.count_append, hl] at h
      exact List.count_pos_iff.1 (by omega)
    obtain ⟨s, u, rfl, hs⟩ := split_newline r hr
    refine ⟨l ++ s ++ ['\n'], u, by simp, ?_, .inr (by simp)⟩
    simp [hl, List.count_eq_zero_of_not_mem hs]

/-- The offset inside the line that starts after `l` and goes on with `t`. -/
theorem offset_line (l r : List Char) (hl : l = [] ∨ l.getLast? = some '\n') (ch : Nat) :
    ∃ text rest, r = text ++ rest ∧
      ('\n' ∉ r ∧ rest = [] ∨ ∃ t, text = t ++ ['\n'] ∧ '\n' ∉ t) ∧
      offset (l ++ r) (l.count '\n') ch = some (match scan ch 0 0 text with
        | some i => blen l + i
        | none => blen (l ++ text)) := by
  have hstart := lineStart_append l [] r hl (by simp)
  simp only [List.append_nil] at hstart
  by_cases hr : '\n' ∈ r
  · obtain ⟨t, u, rfl, ht⟩ := split_newline r hr
    refine ⟨t ++ ['\n'], u, by simp, .inr ⟨t, rfl, ht⟩, ?_⟩
    have hstop := lineStop_append l t u
    have hcount : (l ++ t).count '\n' = l.count '\n' := by
      simp [List.count_eq_zero_of_not_mem ht]
    rw [hcount, List.append_assoc] at hstop
    have hs := slice_append l (t ++ ['\n']) u
    simp only [List.append_assoc, List.singleton_append] at hs hstop
    unfold offset
    rw [hstart]
    simp only [hstop, Option.getD_some, hs, Option.map_some]
    rfl
  · refine ⟨r, [], by simp, .inl ⟨hr, rfl⟩, ?_⟩
    have hstop : (lineStarts (l ++ r))[l.count '\n' + 1]? = none := by
      rw [List.getElem?_eq_none_iff]
      simp [lineStarts, startsFrom_length, List.count_eq_zero_of_not_mem hr]
    have hs := slice_append l r []
    simp only [List.append_nil] at hs
    unfold offset
    rw [hstart]
    simp only [hstop, Option.getD_none, hs, Option.map_some]
    rfl

/-- The offset of a place inside a line. -/
theorem offset_at (l t suf : List Char) (hl : l = [] ∨ l.getLast? = some '\n') (ht : '\n' ∉ t) :
    offset (l ++ t ++ suf) (l.count '\n') (ulen t) = some (blen (l ++ t)) := by
  obtain ⟨text, rest, h1, h2, h3⟩ := offset_line l (t ++ suf) hl (ulen t)
  rw [List.append_assoc, h3]
  have hpre : ∃ v, text = t ++ v ∧ (v = [] → suf = []) := by
    rcases h2 with ⟨_, rfl⟩ | ⟨t', rfl, ht'⟩
    · refine ⟨suf, by simpa using h1.symm, fun h => h⟩
    · -- `t` has no newline, so it is a prefix of `t'`
      have : ∃ v, t' = t ++ v := by
        rw [List.append_assoc] at h1
        rcases List.append_eq_append_iff.1 h1 with ⟨a, ha, hb⟩ | ⟨a, ha, hb⟩
        · exact ⟨a, ha⟩
        · cases a with
          | nil => exact ⟨[], by simpa using ha.symm⟩
          | cons c a =>
            simp only [List.cons_append, List.cons.injEq, List.nil_append] at hb
            obtain ⟨rfl, _⟩ := hb
            exact absurd (by rw [ha]; simp) ht
      obtain ⟨v, rfl⟩ := this
      exact ⟨v ++ ['\n'], by simp, by simp⟩
  obtain ⟨v, rfl, hv⟩ := hpre
  rw [scan_append _ t v 0 0 (by omega) (fun c _ => units_pos c)]
  cases v with
  | nil => simp [scan]
  | cons c v =>
    rw [scan_hit _ _ _ _ _ (by omega)]
    simp [blen_append]

theorem slice_some {cs x : List Char} {a b : Nat} (h : slice cs a b = some x) :
    ∃ p q, cs = p ++ x ++ q ∧ a = blen p ∧ b = blen (p ++ x) := by
  have hdrop : ∀ (cs : List Char) (n : Nat) (r : List Char), dropBytes n cs = some r →
      ∃ p, cs = p ++ r ∧ n = blen p := by
    intro cs
    induction cs with
    | nil =>
      intro n r h
      cases n with
      | zero => simp only [dropBytes, Option.some.injEq] at h; subst h; exact ⟨[], rfl, rfl⟩
      | succ n => simp [dropBytes] at h
    | cons c cs ih =>
      intro n r h
      cases n with
      | zero => simp only [dropBytes, Option.some.injEq] at h; subst h; exact ⟨[], rfl, rfl⟩
      | succ n =>
        simp only [dropBytes] at h
        split at h
        · cases h
        · obtain ⟨p, rfl, hp⟩ := ih _ _ h
          exact ⟨c :: p, rfl, by simp only [blen]; omega⟩
  have htake : ∀ (cs : List Char) (n : Nat) (r : List Char), takeBytes n cs = some r →
      ∃ q, cs = r ++ q ∧ n = blen r := by
    intro cs
    induction cs with
    | nil =>
      intro n r h
      cases n with
      | zero => simp only [takeBytes, Option.some.injEq] at h; subst h; exact ⟨[], rfl, rfl⟩
      | succ n => simp [takeBytes] at h
    | cons c cs ih =>
      intro n r h
      cases n with
      | zero => simp only [takeBytes, Option.some.injEq] at h; subst h; exact ⟨_, rfl, rfl⟩
      | succ n =>
        simp only [takeBytes] at h
        split at h
        · cases h
        · simp only [Option.map_eq_some_iff] at h
          obtain ⟨r', hr', rfl⟩ := h
          obtain ⟨q, rfl, hq⟩ := ih _ _ hr'
          exact ⟨q, rfl, by simp only [blen]; omega⟩
  unfold slice at h
  split at h
  · cases h
  · simp only [Option.bind_eq_some_iff] at h
    obtain ⟨r, h1, h2⟩ := h
    obtain ⟨p, rfl, hp⟩ := hdrop _ _ _ h1
    obtain ⟨q, rfl, hq⟩ := htake _ _ _ h2
    exact ⟨p, q, by simp, hp, by rw [blen_append]; omega⟩

end Verif.Lsp
