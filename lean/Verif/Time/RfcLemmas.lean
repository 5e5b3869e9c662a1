import Verif.Time.RfcText
import Verif.Time.InstantLemmas
/-! # The RFC 3339 parser accepts exactly the grammar -/
namespace Verif.Time

theorem digitsAt_of {b l : List Char} {start len : Nat} (hl : (b.drop start).take len = l) (hlen : l.length = len)
    (hd : ∀ c ∈ l, c.isDigit = true) : digitsAt b start len = some (digitsVal l) := by
  unfold digitsAt
  simp only [hl]
  rw [if_pos ⟨hlen, by simpa [allDigits] using hd⟩]

theorem digitsAt_some {b : List Char} {start len n : Nat} (h : digitsAt b start len = some n) :
    Numeral len ((b.drop start).take len) n := by
  unfold digitsAt at h
  simp only at h
  split at h
  · rename_i hc
    simp only [Option.some.injEq] at h
    exact ⟨hc.1, by simpa [allDigits] using hc.2, by rw [h]⟩
  · cases h

theorem take9 (ds : List Char) :
    digitsVal (ds.take 9) * 10 ^ (9 - (ds.take 9).length) = digitsVal ((ds ++ List.replicate 9 '0').take 9) := by
  rw [List.take_append, digitsVal_append, List.take_replicate, digitsVal_zeros, List.length_replicate,
    List.length_take, Nat.add_zero]
  congr 2
  omega

theorem List.mem_takeWhile_imp' {p : Char → Bool} {l : List Char} {c : Char} (h : c ∈ l.takeWhile p) : p c = true := by
  induction l with
  | nil => simp at h
  | cons a t ih =>
    rw [List.takeWhile_cons] at h
    split at h
    · rename_i ha
      rcases List.mem_cons.1 h with rfl | h
      · exact ha
      · exact ih h
    · simp at h

theorem parseFrac_iff {t r : List Char} {n : Nat} :
    parseFrac t = some (n, r) → ∃ f, t = f ++ r ∧ FracText f n := by
  intro h
  unfold parseFrac at h
  split at h
  · rename_i t'
    simp only at h
    split at h
    · cases h
    · rename_i hne
      simp only [Option.some.injEq, Prod.mk.injEq] at h
      obtain ⟨h1, h2⟩ := h
      refine ⟨'.' :: t'.takeWhile Char.isDigit, ?_, Or.inr ⟨_, hne, ?_, rfl, ?_⟩⟩
      · rw [← h2, List.cons_append, List.takeWhile_append_dropWhile]
      · intro c hc; exact (List.mem_takeWhile_imp' hc)
      · rw [← take9, h1]
  · simp only [Option.some.injEq, Prod.mk.injEq] at h
    obtain ⟨rfl, rfl⟩ := h
    exact ⟨[], rfl, Or.inl ⟨rfl, rfl⟩⟩

/-- A zone does not start with a digit or a point. -/
theorem zone_head {z : List Char} {off : Int} (h : ZoneText z off) :
    (∀ c ∈ z.head?, c.isDigit = false) ∧ ∀ c ∈ z.head?, c ≠ '.' := by
  rcases h with ⟨rfl, -⟩ | ⟨h, m, hh, mm, -, -, -, -, (⟨rfl, -⟩ | ⟨rfl, -⟩)⟩ <;> simp

theorem parseFrac_of {f z : List Char} {n : Int} (hf : FracText f n) (hz : (∀ c ∈ z.head?, c.isDigit = false) ∧ ∀ c ∈ z.head?, c ≠ '.') :
    ∃ k : Nat, parseFrac (f ++ z) = some (k, z) ∧ (k : Int) = n := by
  rcases hf with ⟨rfl, rfl⟩ | ⟨ds, hne, hd, rfl, rfl⟩
  · refine ⟨0, ?_, rfl⟩
    rw [List.nil_append]
    unfold parseFrac
    split
    · exact absurd rfl (hz.2 '.' (by simp))
    · rfl
  · refine ⟨_, ?_, rfl⟩
    have := takeWhile_digits (a := ds) (b := z) hd hz.1
    rw [List.cons_append, parseFrac]
    simp only [this.1, this.2]
    rw [if_neg hne, take9]

theorem parseOffset_iff {sign : Int} {t : List Char} {off : Int} :
    parseOffset sign t = some off ↔ ∃ h m hh mm, Numeral 2 h hh ∧ Numeral 2 m mm ∧ hh ≤ 23 ∧ mm ≤ 59 ∧
      t = h ++ ':' :: m ∧ off = sign * (hh * 3600 + mm * 60) := by
  constructor
  · intro h
    unfold parseOffset at h
    split at h
    · rename_i oh om h1 h2 h3
      split at h
      · cases h
      · split at h
        · cases h
        · rename_i hb hl
          simp only [Option.some.injEq] at h
          have n1 := digitsAt_some h1
          have n2 := digitsAt_some h3
          refine ⟨_, _, oh, om, n1, n2, by omega, by omega, ?_, h.symm⟩
          match t, hl with
          | [a, b, c, d, e], _ => simp at h2 ⊢; exact h2
          | [], hl => simp at hl
          | [_], hl => simp at hl
          | [_, _], hl => simp at hl
          | [_, _, _], hl => simp at hl
          | [_, _, _, _], hl => simp at hl
          | _ :: _ :: _ :: _ :: _ :: _ :: _, hl => simp at hl
    · cases h
  · rintro ⟨h, m, hh, mm, ⟨l1, d1, v1⟩, ⟨l2, d2, v2⟩, b1, b2, rfl, rfl⟩
    unfold parseOffset
    rw [digitsAt_of (l := h) (by rw [List.drop_zero]; exact List.take_left' l1) l1 d1,
      digitsAt_of (l := m) (by
        rw [show (3 : Nat) = 2 + 1 from rfl, ← List.drop_drop, List.drop_left' l1]
        simp only [List.drop_succ_cons, List.drop_zero]
        exact List.take_of_length_le (by omega)) l2 d2]
    have : (h ++ ':' :: m)[2]? = some ':' := by
      rw [List.getElem?_append_right (by omega), l1]; rfl
    rw [this]
    simp only
    rw [if_neg (by omega), if_neg (by simp [l1, l2])]
    simp [v1, v2]

theorem parseZone_iff {z : List Char} {off : Int} : parseZone z = some off ↔ ZoneText z off := by
  constructor
  · intro h
    unfold parseZone at h
    split at h
    · simp only [Option.some.injEq] at h; exact Or.inl ⟨rfl, h.symm⟩
    · obtain ⟨a, b, hh, mm, h1, h2, h3, h4, rfl, rfl⟩ := parseOffset_iff.1 h
      exact Or.inr ⟨a, b, hh, mm, h1, h2, h3, h4, Or.inl ⟨rfl, by omega⟩⟩
    · obtain ⟨a, b, hh, mm, h1, h2, h3, h4, rfl, rfl⟩ := parseOffset_iff.1 h
      exact Or.inr ⟨a, b, hh, mm, h1, h2, h3, h4, Or.inr ⟨rfl, by omega⟩⟩
    · cases h
  · rintro (⟨rfl, rfl⟩ | ⟨a, b, hh, mm, h1, h2, h3, h4, (⟨rfl, rfl⟩ | ⟨rfl, rfl⟩)⟩)
    · rfl
    · exact parseOffset_iff.2 ⟨a, b, hh, mm, h1, h2, h3, h4, rfl, by omega⟩
    · exact parseOffset_iff.2 ⟨a, b, hh, mm, h1, h2, h3, h4, rfl, by omega⟩

theorem list2 {l : List Char} (h : l.length = 2) : ∃ a b, l = [a, b] := by
  match l, h with
  | [a, b], _ => exact ⟨a, b, rfl⟩

theorem list4 {l : List Char} (h : l.length = 4) : ∃ a b c d, l = [a, b, c, d] := by
  match l, h with
  | [a, b, c, d], _ => exact ⟨a, b, c, d, rfl⟩

theorem list19 {l : List Char} (h : 19 ≤ l.length) : ∃ c0 c1 c2 c3 c4 c5 c6 c7 c8 c9 c10 c11 c12 c13 c14 c15 c16 c17 c18 t,
    l = c0 :: c1 :: c2 :: c3 :: c4 :: c5 :: c6 :: c7 :: c8 :: c9 :: c10 :: c11 :: c12 :: c13 :: c14 :: c15 :: c16 :: c17 :: c18 :: t := by
  have step : ∀ {n : Nat} {l : List Char}, n + 1 ≤ l.length → ∃ c t, l = c :: t ∧ n ≤ t.length := by
    intro n l hl
    cases l with
    | nil => simp at hl
    | cons c t => exact ⟨c, t, rfl, by simpa using hl⟩
  obtain ⟨c0, l0, rfl, h0⟩ := step h
  obtain ⟨c1, l1, rfl, h1⟩ := step h0
  obtain ⟨c2, l2, rfl, h2⟩ := step h1
  obtain ⟨c3, l3, rfl, h3⟩ := step h2
  obtain ⟨c4, l4, rfl, h4⟩ := step h3
  obtain ⟨c5, l5, rfl, h5⟩ := step h4
  obtain ⟨c6, l6, rfl, h6⟩ := step h5
  obtain ⟨c7, l7, rfl, h7⟩ := step h6
  obtain ⟨c8, l8, rfl, h8⟩ := step h7
  obtain ⟨c9, l9, rfl, h9⟩ := step h8
  obtain ⟨c10, l10, rfl, h10⟩ := step h9
  obtain ⟨c11, l11, rfl, h11⟩ := step h10
  obtain ⟨c12, l12, rfl, h12⟩ := step h11
  obtain ⟨c13, l13, rfl, h13⟩ := step h12
  obtain ⟨c14, l14, rfl, h14⟩ := step h13
  obtain ⟨c15, l15, rfl, h15⟩ := step h14
  obtain ⟨c16, l16, rfl, h16⟩ := step h15
  obtain ⟨c17, l17, rfl, h17⟩ := step h16
  obtain ⟨c18, l18, rfl, h18⟩ := step h17
  exact ⟨_, _, _, _, _, _, _, _, _, _, _, _, _, _, _, _, _, _, _, _, rfl⟩

theorem validDate_iff {y m d : Int} : ValidDate GregorianLeap (y, m, d) ↔
    (1 ≤ m ∧ m ≤ 12) ∧ (1 ≤ d ∧ d ≤ lastDayOfMonth y m) := by
  constructor
  · rintro ⟨h1, h2, h3, h4⟩
    simp only at h1 h2 h3 h4
    rw [lastDay_eq h1 h2]; exact ⟨⟨h1, h2⟩, h3, h4⟩
  · rintro ⟨⟨h1, h2⟩, h3, h4⟩
    rw [lastDay_eq h1 h2] at h4
    exact ⟨h1, h2, h3, h4⟩

theorem frac_bounds {f : List Char} {n : Int} (h : FracText f n) : 0 ≤ n ∧ n ≤ 999999999 := by
  rcases h with ⟨-, rfl⟩ | ⟨ds, -, hd, -, rfl⟩
  · omega
  · have := digitsVal_lt (l := (ds ++ List.replicate 9 '0').take 9) (by
      intro c hc
      have := List.mem_of_mem_take hc
      rw [List.mem_append] at this
      rcases this with h | h
      · exact hd c h
      · rw [List.eq_of_mem_replicate h]; decide)
    have hl : ((ds ++ List.replicate 9 '0').take 9).length = 9 := by simp
    rw [hl] at this
    omega

theorem parseCivil_sound {s : List Char} {c : Civil} {off : Int} (h : parseCivil s = some (c, off)) :
    Timestamp s c off ∧ ValidCivil c := by
  unfold parseCivil at h
  split at h
  · cases h
  · rename_i hlen
    split at h
    · cases h
    · rename_i hsep
      simp only [not_or, not_not] at hsep
      obtain ⟨s1, s2, s3, s4, s5⟩ := hsep
      simp only [Option.bind_eq_bind, Option.bind_eq_some_iff] at h
      obtain ⟨y, hy, mo, hmo, d, hd, hh, hhh, mi, hmi, se, hse, h⟩ := h
      split at h
      · cases h
      · rename_i hdate
        split at h
        · cases h
        · rename_i htime
          simp only [Option.bind_eq_some_iff] at h
          obtain ⟨fr, hfr, off', hoff, h⟩ := h
          simp only [Option.some.injEq, Prod.mk.injEq] at h
          obtain ⟨rfl, rfl⟩ := h
          obtain ⟨n, r⟩ := fr
          obtain ⟨f, hf, hft⟩ := parseFrac_iff hfr
          have hz := parseZone_iff.1 hoff
          have hfb := frac_bounds hft
          have a1 := digitsAt_some hy
          have a2 := digitsAt_some hmo
          have a3 := digitsAt_some hd
          have a4 := digitsAt_some hhh
          have a5 := digitsAt_some hmi
          have a6 := digitsAt_some hse
          obtain ⟨c0, c1, c2, c3, c4, c5, c6, c7, c8, c9, c10, c11, c12, c13, c14, c15, c16, c17, c18, t, rfl⟩ :=
            list19 (l := s) (by omega)
          simp at s1 s2 s3 s4 s5 a1 a2 a3 a4 a5 a6 hf
          subst s1 s2 s3 s4 s5 hf
          refine ⟨⟨_, _, _, _, _, _, f, r, a1, a2, a3, a4, a5, a6, hft, hz, ?_⟩, ?_, ?_, ?_, ?_, hfb⟩
          · simp
          · rw [validDate_iff]
            simp only
            constructor <;> constructor <;> omega
          · simp only; omega
          · simp only; omega
          · simp only; omega

theorem parseCivil_complete {s : List Char} {c : Civil} {off : Int} (h : Timestamp s c off) (hv : ValidCivil c) :
    parseCivil s = some (c, off) := by
  obtain ⟨Y, M, D, hh, mi, se, f, z, nY, nM, nD, nh, nm, ns, hf, hz, rfl⟩ := h
  obtain ⟨k, hk, hkn⟩ := parseFrac_of hf (zone_head hz)
  have hzp := parseZone_iff.2 hz
  have hzl : 1 ≤ z.length := by
    rcases hz with ⟨rfl, -⟩ | ⟨h, m, hh, mm, -, -, -, -, (⟨rfl, -⟩ | ⟨rfl, -⟩)⟩ <;> simp
  obtain ⟨lY, dY, vY⟩ := nY
  obtain ⟨lM, dM, vM⟩ := nM
  obtain ⟨lD, dD, vD⟩ := nD
  obtain ⟨lh, dh, vh⟩ := nh
  obtain ⟨lm, dm, vm⟩ := nm
  obtain ⟨ls, ds, vs⟩ := ns
  obtain ⟨y0, y1, y2, y3, rfl⟩ := list4 lY
  obtain ⟨m0, m1, rfl⟩ := list2 lM
  obtain ⟨d0, d1, rfl⟩ := list2 lD
  obtain ⟨h0, h1, rfl⟩ := list2 lh
  obtain ⟨i0, i1, rfl⟩ := list2 lm
  obtain ⟨s0, s1, rfl⟩ := list2 ls
  obtain ⟨v1, v2, v3, v4, v5⟩ := hv
  rw [validDate_iff] at v1
  unfold parseCivil
  rw [if_neg (by simp; omega), if_neg (by simp)]
  rw [digitsAt_of (l := [y0, y1, y2, y3]) (len := 4) (by simp) rfl dY, digitsAt_of (l := [m0, m1]) (len := 2) (by simp) rfl dM,
    digitsAt_of (l := [d0, d1]) (len := 2) (by simp) rfl dD, digitsAt_of (l := [h0, h1]) (len := 2) (by simp) rfl dh,
    digitsAt_of (l := [i0, i1]) (len := 2) (by simp) rfl dm, digitsAt_of (l := [s0, s1]) (len := 2) (by simp) rfl ds]
  simp only [Option.bind_eq_bind, Option.bind_some]
  rw [vY, vM]
  rw [if_neg (by
    rw [vD]
    push Not
    refine ⟨?_, ?_, v1.2.2⟩ <;> omega), if_neg (by omega)]
  have hdrop : List.drop 19 ([y0, y1, y2, y3] ++ '-' :: [m0, m1] ++ '-' :: [d0, d1] ++ 'T' :: [h0, h1] ++
      ':' :: [i0, i1] ++ ':' :: [s0, s1] ++ f ++ z) = f ++ z := by simp
  rw [hdrop, hk]
  simp only [Option.bind_some, hzp]
  rw [vD, vh, vm, vs, hkn]

/-! ### The formatter writes the grammar -/

theorem numeral_decPad {k : Nat} {x : Int} (hk : 0 < k) (h0 : 0 ≤ x) (h : x < 10 ^ k) : Numeral k (decPad k x.natAbs) x := by
  have hlt : x.natAbs < 10 ^ k := by
    have : ((x.natAbs : Nat) : Int) < ((10 ^ k : Nat) : Int) := by rw [Int.natAbs_of_nonneg h0]; push_cast; exact h
    exact_mod_cast this
  rw [decPad_eq hk hlt]
  refine ⟨fixDigits_length _ _, fun c hc => isDigit_fixDigits hc, ?_⟩
  rw [digitsVal_fix, Nat.mod_eq_of_lt hlt]; omega

theorem fracText_format {n : Int} (h0 : 0 ≤ n) (h : n ≤ 999999999) :
    FracText (if n ≠ 0 then '.' :: fracStr n.natAbs 9 else []) n := by
  by_cases hn : n = 0
  · rw [if_neg (by simpa using hn)]; exact Or.inl ⟨rfl, hn⟩
  · rw [if_pos hn]
    obtain ⟨f1, f2, f3, f4⟩ := fracStr_spec (frac := n.natAbs) (width := 9) (by omega) (by decide) (by omega)
    refine Or.inr ⟨_, f2, f1, rfl, ?_⟩
    rw [← take9, List.take_of_length_le f3, f4]; omega

theorem format_timestamp {c : Civil} (hv : ValidCivil c) (hy : 0 ≤ c.year) (hy' : c.year ≤ 9999) :
    Timestamp (formatCivil c) c 0 := by
  obtain ⟨⟨h1, h2, h3, h4⟩, h5, h6, h7, h8⟩ := hv
  simp only at h1 h2 h3 h4
  have hb := monthLength_bounds GregorianLeap c.year c.month
  refine ⟨decPad 4 c.year.natAbs, decPad 2 c.month.natAbs, decPad 2 c.day.natAbs, decPad 2 c.hour.natAbs, decPad 2 c.minute.natAbs, decPad 2 c.second.natAbs, _, ['Z'],
    numeral_decPad (by decide) hy (by omega), numeral_decPad (by decide) (by omega) (by omega),
    numeral_decPad (by decide) (by omega) (by omega), numeral_decPad (by decide) (by omega) (by omega),
    numeral_decPad (by decide) (by omega) (by omega), numeral_decPad (by decide) (by omega) (by omega),
    fracText_format h8.1 h8.2, Or.inl ⟨rfl, rfl⟩, ?_⟩
  unfold formatCivil pad4
  rw [if_neg (by omega)]

theorem year_i64 {t : Int} (h : InI64 t) : 1677 ≤ (civilFromUnixNanos t).year ∧ (civilFromUnixNanos t).year ≤ 2262 := by
  unfold InI64 at h
  rw [civil_eq]
  simp only
  have hb := civil_year_bounds (t / npd)
  have e1 : daysFromCivil 1677 1 1 = -107015 := by decide
  have e2 : daysFromCivil 2263 1 1 = 107016 := by decide
  constructor
  · by_contra hc
    have := jan1_mono (show (civilFromDays (t / npd)).1 < 1677 by omega)
    omega
  · by_contra hc
    have : daysFromCivil 2263 1 1 ≤ daysFromCivil (civilFromDays (t / npd)).1 1 1 := by
      have := jan1_mono (show (2262 : Int) < (civilFromDays (t / npd)).1 by omega)
      exact this
    omega

end Verif.Time
