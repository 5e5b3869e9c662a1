import Verif.Time.Instant
import Verif.Time.CalendarMore
import Mathlib.Data.Finset.Card
import Mathlib.Order.Interval.Finset.Basic
import Mathlib.Data.Int.Interval
/-! # Lemmas on instants, zones, spans, business days and leap seconds -/
namespace Verif.Time

theorem tmod_nonneg' {a b : Int} (ha : 0 ≤ a) : a.tmod b = a % b := Int.tmod_eq_emod_of_nonneg ha

/-- A civil date-time that exists: a Gregorian date and a time of day. -/
def ValidCivil (c : Civil) : Prop :=
  ValidDate GregorianLeap (c.year, c.month, c.day) ∧ (0 ≤ c.hour ∧ c.hour ≤ 23) ∧ (0 ≤ c.minute ∧ c.minute ≤ 59) ∧
    (0 ≤ c.second ∧ c.second ≤ 59) ∧ (0 ≤ c.nanosecond ∧ c.nanosecond ≤ 999999999)

/-- The nanosecond of the day. -/
def todNanos (c : Civil) : Int := (c.hour * 3600 + c.minute * 60 + c.second) * nps + c.nanosecond

theorem tod_bounds {c : Civil} (h : ValidCivil c) : 0 ≤ todNanos c ∧ todNanos c < npd := by
  obtain ⟨-, h1, h2, h3, h4⟩ := h
  unfold todNanos; omega

theorem civil_eq (ns : Int) : civilFromUnixNanos ns =
    { year := (civilFromDays (ns / npd)).1, month := (civilFromDays (ns / npd)).2.1,
      day := (civilFromDays (ns / npd)).2.2, hour := ns % npd / 3600000000000,
      minute := ns % npd / 60000000000 % 60, second := ns % npd / nps % 60, nanosecond := ns % nps } := by
  unfold civilFromUnixNanos
  have h0 : 0 ≤ ns % npd := by omega
  simp only [Civil.mk.injEq, true_and]
  rw [tdiv_nonneg h0, tmod_nonneg' h0]
  have h1 : 0 ≤ ns % npd / nps := by omega
  rw [tdiv_nonneg h1, tmod_nonneg' h1, tdiv_nonneg (by omega), tmod_nonneg' h1]
  refine ⟨?_, ?_, ?_, ?_⟩ <;> omega

theorem civil_nanos (ns : Int) : ValidCivil (civilFromUnixNanos ns) ∧ unixNanosFromCivil (civilFromUnixNanos ns) = ns := by
  rw [civil_eq]
  have hs := civil_spec (ns / npd)
  refine ⟨⟨hs.1, ?_, ?_, ?_, ?_⟩, ?_⟩
  · simp only; omega
  · simp only; omega
  · simp only; omega
  · simp only; omega
  · simp only [unixNanosFromCivil, hs.2]; omega

theorem unix_eq (c : Civil) : unixNanosFromCivil c = daysFromCivil c.year c.month c.day * npd + todNanos c := by
  unfold unixNanosFromCivil todNanos; omega

theorem nanos_civil {c : Civil} (h : ValidCivil c) : civilFromUnixNanos (unixNanosFromCivil c) = c := by
  have hb := tod_bounds h
  have hu := unix_eq c
  have hd : unixNanosFromCivil c / npd = daysFromCivil c.year c.month c.day := by rw [hu]; omega
  have hr : unixNanosFromCivil c % npd = todNanos c := by rw [hu]; omega
  have hn : unixNanosFromCivil c % nps = todNanos c % nps := by rw [hu]; omega
  obtain ⟨hv, h1, h2, h3, h4⟩ := h
  rw [civil_eq, hd, hr, hn]
  have hc := civil_days hv
  simp only at hc
  rw [hc]
  unfold todNanos
  cases c
  simp only [Civil.mk.injEq, true_and] at *
  refine ⟨?_, ?_, ?_, ?_⟩ <;> omega

theorem civil_inj {s t : Int} (h : civilFromUnixNanos s = civilFromUnixNanos t) : s = t := by
  rw [← (civil_nanos s).2, ← (civil_nanos t).2, h]

/-! ## Zones -/

theorem mem_zoneOffsets_aux (ts : List Transition) (l : List Int) (o : Int) :
    o ∈ ts.foldl (fun l t => if t.offset ∈ l then l else l ++ [t.offset]) l ↔ o ∈ l ∨ ∃ t ∈ ts, t.offset = o := by
  induction ts generalizing l with
  | nil => simp
  | cons t ts ih =>
    rw [List.foldl_cons, ih]
    by_cases h : t.offset ∈ l
    · rw [if_pos h]
      constructor
      · rintro (h | ⟨x, hx, rfl⟩)
        · exact Or.inl h
        · exact Or.inr ⟨x, List.mem_cons_of_mem _ hx, rfl⟩
      · rintro (h' | ⟨x, hx, rfl⟩)
        · exact Or.inl h'
        · rcases List.mem_cons.1 hx with rfl | hx
          · exact Or.inl h
          · exact Or.inr ⟨x, hx, rfl⟩
    · rw [if_neg h]
      simp only [List.mem_append, List.mem_cons, List.not_mem_nil, or_false, exists_eq_or_imp]
      rw [or_assoc]
      constructor
      · rintro (h | rfl | h)
        · exact Or.inl h
        · exact Or.inr (Or.inl rfl)
        · exact Or.inr (Or.inr h)
      · rintro (h | rfl | h)
        · exact Or.inl h
        · exact Or.inr (Or.inl rfl)
        · exact Or.inr (Or.inr h)

theorem mem_zoneOffsets {ts : List Transition} {base o : Int} :
    o ∈ zoneOffsets ts base ↔ o = base ∨ ∃ t ∈ ts, t.offset = o := by
  rw [zoneOffsets, mem_zoneOffsets_aux]; simp

theorem offsetLoop_mem (secs off : Int) (ts : List Transition) :
    offsetLoop secs off ts = off ∨ ∃ t ∈ ts, t.offset = offsetLoop secs off ts := by
  induction ts generalizing off with
  | nil => exact Or.inl rfl
  | cons t ts ih =>
    rw [offsetLoop]
    split
    · rcases ih t.offset with h | ⟨x, hx, h⟩
      · exact Or.inr ⟨t, List.mem_cons_self, h.symm⟩
      · exact Or.inr ⟨x, List.mem_cons_of_mem _ hx, h⟩
    · exact Or.inl rfl

theorem offsetAt_mem (ts : List Transition) (base t : Int) : offsetAt ts base t ∈ zoneOffsets ts base :=
  mem_zoneOffsets.2 (offsetLoop_mem _ _ _)

theorem mem_dedup {l : List Int} {x : Int} : x ∈ dedup l ↔ x ∈ l := by
  induction l using dedup.induct with
  | case1 => rfl
  | case2 => rfl
  | case3 y t ih => rw [dedup, if_pos rfl, ih]; simp
  | case4 x y t h ih => rw [dedup, if_neg h, List.mem_cons, ih]; simp

theorem dedup_pairwise {l : List Int} (h : l.Pairwise (· ≤ ·)) : (dedup l).Pairwise (· < ·) := by
  induction l using dedup.induct with
  | case1 => exact List.Pairwise.nil
  | case2 => simp [dedup]
  | case3 y t ih => rw [dedup, if_pos rfl]; exact ih h.of_cons
  | case4 x y t hxy ih =>
    rw [dedup, if_neg hxy, List.pairwise_cons]
    refine ⟨fun z hz => ?_, ih h.of_cons⟩
    rw [mem_dedup] at hz
    have h1 := (List.pairwise_cons.1 h).1
    have h2 := (List.pairwise_cons.1 h.of_cons).1
    have := h1 y List.mem_cons_self
    rcases List.mem_cons.1 hz with rfl | hz
    · omega
    · have := h2 z hz; omega

theorem headD_least {l : List Int} (h : l.Pairwise (· ≤ ·)) (hn : l ≠ []) :
    l.headD 0 ∈ l ∧ ∀ x ∈ l, l.headD 0 ≤ x := by
  cases l with
  | nil => exact absurd rfl hn
  | cons a t =>
    refine ⟨List.mem_cons_self, fun x hx => ?_⟩
    rcases List.mem_cons.1 hx with rfl | hx
    · exact le_refl _
    · exact (List.pairwise_cons.1 h).1 x hx

theorem getLastD_greatest {l : List Int} (h : l.Pairwise (· ≤ ·)) (hn : l ≠ []) :
    l.getLastD 0 ∈ l ∧ ∀ x ∈ l, x ≤ l.getLastD 0 := by
  induction l with
  | nil => exact absurd rfl hn
  | cons a t ih =>
    cases t with
    | nil => simp
    | cons b t =>
      have := ih h.of_cons (by simp)
      have he : (a :: b :: t).getLastD 0 = (b :: t).getLastD 0 := by simp
      rw [he]
      refine ⟨List.mem_cons_of_mem _ this.1, fun x hx => ?_⟩
      rcases List.mem_cons.1 hx with rfl | hx
      · exact le_trans ((List.pairwise_cons.1 h).1 b List.mem_cons_self) (this.2 b List.mem_cons_self)
      · exact this.2 x hx

theorem sorted_le (l : List Int) : (sortBy (fun a b => decide (a ≤ b)) l).Pairwise (· ≤ ·) := by
  have := sortBy_pairwise (le := fun (a b : Int) => decide (a ≤ b)) (by intro a b c; simp; omega)
    (by intro a b; simp; omega) l
  exact this.imp (by simp)

/-- The instants showing the local time `c`. -/
theorem shows_iff {ts : List Transition} {base : Int} {c : Civil} (hv : ValidCivil c) (t : Int) :
    toLocal ts base t = c ↔ t + offsetAt ts base t * nps = unixNanosFromCivil c := by
  unfold toLocal
  constructor
  · rintro h; rw [← h, (civil_nanos _).2]
  · intro h; rw [h, nanos_civil hv]

theorem mem_valid {ts : List Transition} {base : Int} {c : Civil} (hv : ValidCivil c) (t : Int) :
    t ∈ validInstants ts base (unixNanosFromCivil c) ↔ toLocal ts base t = c := by
  unfold validInstants
  rw [mem_dedup, (sortBy_perm _ _).mem_iff, List.mem_map, shows_iff hv]
  constructor
  · rintro ⟨o, ho, rfl⟩
    rw [List.mem_filter] at ho
    have := ho.2
    simp only [decide_eq_true_eq] at this
    rw [this]; omega
  · intro h
    refine ⟨offsetAt ts base t, List.mem_filter.2 ⟨offsetAt_mem _ _ _, ?_⟩, by omega⟩
    have : unixNanosFromCivil c - offsetAt ts base t * nps = t := by omega
    simp [this]

theorem valid_pairwise (ts : List Transition) (base n : Int) : (validInstants ts base n).Pairwise (· < ·) :=
  dedup_pairwise (sorted_le _)

theorem fromLocal_eq (ts : List Transition) (base : Int) (c : Civil) (fold : Fold)
    (h : validInstants ts base (unixNanosFromCivil c) ≠ []) :
    fromLocal ts base c fold = match fold with
      | .earlier => (validInstants ts base (unixNanosFromCivil c)).headD 0
      | .later => (validInstants ts base (unixNanosFromCivil c)).getLastD 0 := by
  unfold fromLocal
  simp only
  generalize validInstants ts base (unixNanosFromCivil c) = l at *
  match l, h with
  | [a], _ => cases fold <;> simp
  | a :: b :: t, _ => cases fold <;> simp

theorem fromLocal_gap (ts : List Transition) (base : Int) (c : Civil) (fold : Fold)
    (h : validInstants ts base (unixNanosFromCivil c) = []) :
    fromLocal ts base c fold = match fold with
      | .earlier => (gapInstants ts base (unixNanosFromCivil c)).headD 0
      | .later => (gapInstants ts base (unixNanosFromCivil c)).getLastD 0 := by
  unfold fromLocal
  simp only
  rw [h, if_neg (by simp), if_neg (by simp)]
  cases fold <;> rfl

/-! ## Business days -/

/-- Weekdays before day `z`, in closed form. -/
def wk (z : Int) : Int := 5 * (z / 7) + (min (z % 7) 2 + max (z % 7 - 4) 0)

theorem isWeekend_iff (z : Int) : isWeekend z = true ↔ z % 7 = 2 ∨ z % 7 = 3 := by
  simp only [isWeekend, Bool.or_eq_true, decide_eq_true_eq]
  unfold weekdayFromDays; omega

theorem wk_succ (z : Int) : wk (z + 1) = if isWeekend z then wk z else wk z + 1 := by
  by_cases h : isWeekend z = true
  · rw [if_pos h]; rw [isWeekend_iff] at h; unfold wk; omega
  · rw [if_neg h]; rw [isWeekend_iff] at h; unfold wk; omega

theorem wk_mono {a b : Int} (h : a ≤ b) : wk a ≤ wk b := by
  obtain ⟨k, rfl⟩ : ∃ k : Nat, b = a + k := ⟨(b - a).toNat, by omega⟩
  clear h
  induction k with
  | zero => simp
  | succ k ih =>
    rw [show a + ((k + 1 : Nat) : Int) = a + k + 1 by push_cast; omega, wk_succ]
    split <;> omega

theorem wk_week (z k : Int) : wk (z + k * 7) = wk z + k * 5 := by
  unfold wk
  rw [show (z + k * 7) % 7 = z % 7 by omega, show (z + k * 7) / 7 = z / 7 + k by omega]
  omega

theorem restLoop_eq (hi : Int) (f : Nat) (d count : Int) (h : hi ≤ d + f) (hd : d ≤ hi) :
    restLoop hi f d count = count + (wk hi - wk d) := by
  induction f generalizing d count with
  | zero => obtain rfl : d = hi := by omega
            simp [restLoop]
  | succ f ih =>
    rw [restLoop]
    by_cases hlt : d < hi
    · rw [if_pos hlt, ih _ _ (by push_cast at h; omega) (by omega), wk_succ]
      split <;> omega
    · rw [if_neg hlt]; obtain rfl : d = hi := by omega
      omega

theorem between_eq (a b : Int) : businessDaysBetween a b = wk b - wk a := by
  unfold businessDaysBetween
  by_cases h : a = b
  · rw [if_pos h, h]; omega
  · rw [if_neg h]
    by_cases hlt : a < b
    · simp only [if_pos hlt]
      rw [tdiv_nonneg (by omega), restLoop_eq _ _ _ _ (by omega) (by omega), wk_week]; omega
    · simp only [if_neg hlt]
      rw [tdiv_nonneg (by omega), restLoop_eq _ _ _ _ (by omega) (by omega), wk_week]; omega

theorem card_eq {a b : Int} (h : a ≤ b) :
    (((Finset.Ico a b).filter (fun d => ¬ (d % 7 = 2 ∨ d % 7 = 3))).card : Int) = wk b - wk a := by
  obtain ⟨k, rfl⟩ : ∃ k : Nat, b = a + k := ⟨(b - a).toNat, by omega⟩
  clear h
  induction k with
  | zero => simp
  | succ k ih =>
    rw [show a + ((k + 1 : Nat) : Int) = a + k + 1 by push_cast; omega]
    have hins : Finset.Ico a (a + k + 1) = insert (a + (k : Int)) (Finset.Ico a (a + k)) := by
      ext x; simp only [Finset.mem_Ico, Finset.mem_insert]; omega
    rw [hins, Finset.filter_insert, wk_succ]
    by_cases hw : isWeekend (a + k) = true
    · rw [if_pos hw]; rw [isWeekend_iff] at hw; rw [if_neg (by simp [hw]), ih]
    · rw [if_neg hw]; rw [isWeekend_iff] at hw
      rw [if_pos hw, Finset.card_insert_of_notMem (by simp)]
      push_cast; rw [ih]; omega

theorem wk_pred (z : Int) : wk (z - 1) = if isWeekend (z - 1) then wk z else wk z - 1 := by
  have := wk_succ (z - 1)
  rw [show z - 1 + 1 = z by omega] at this
  split at this <;> rename_i h
  · rw [if_pos h, this]
  · rw [if_neg h]; omega

/-- How many days until the next weekday (at most two weekend days first). -/
theorem addLoop_up (f r : Nat) (d : Int) (hf : 3 * r ≤ f + (if isWeekend (d + 1) then (if isWeekend (d + 2) then 0 else 1) else 2) ∧ (r = 0 ∨ 0 < f)) :
    ∃ e, addLoop 1 f d r = some e ∧ wk (e + 1) = wk (d + 1) + r ∧ d ≤ e ∧ (0 < r → isWeekend e = false ∧ d < e) ∧ (r = 0 → e = d) := by
  induction f generalizing d r with
  | zero =>
    obtain rfl : r = 0 := by omega
    exact ⟨d, rfl, by simp, by simp, by simp, by simp⟩
  | succ f ih =>
    cases r with
    | zero => exact ⟨d, rfl, by simp, by simp, by simp, by simp⟩
    | succ r =>
      rw [addLoop]
      have w1 := isWeekend_iff (d + 1)
      have w2 := isWeekend_iff (d + 2)
      have w3 := isWeekend_iff (d + 3)
      by_cases hw : isWeekend (d + 1) = true
      · rw [if_pos hw]
        obtain ⟨e, h1, h2, h3, h4, -⟩ := ih (r + 1) (d + 1) (by
          rw [show d + 1 + 1 = d + 2 by omega, show d + 1 + 2 = d + 3 by omega]
          rw [if_pos hw] at hf
          by_cases hw2 : isWeekend (d + 2) = true
          · rw [if_pos hw2] at hf ⊢
            have : ¬ isWeekend (d + 3) = true := by rw [w3]; rw [w1] at hw; rw [w2] at hw2; omega
            rw [if_neg this]; omega
          · rw [if_neg hw2] at hf ⊢; omega)
        refine ⟨e, h1, ?_, by omega, fun _ => ⟨(h4 (by omega)).1, by omega⟩, by omega⟩
        rw [h2, wk_succ (d + 1), if_pos hw]
      · rw [if_neg hw]
        obtain ⟨e, h1, h2, h3, h4, h5⟩ := ih r (d + 1) (by
          rw [if_neg hw] at hf
          constructor
          · split <;> (try split) <;> omega
          · omega)
        refine ⟨e, h1, ?_, by omega, fun _ => ?_, by omega⟩
        · rw [h2, wk_succ (d + 1), if_neg hw]; push_cast; omega
        · rcases Nat.eq_zero_or_pos r with h0 | h0
          · rw [h5 h0]; exact ⟨by simpa using hw, by omega⟩
          · exact ⟨(h4 h0).1, by omega⟩

theorem addLoop_down (f r : Nat) (d : Int) (hf : 3 * r ≤ f + (if isWeekend (d - 1) then (if isWeekend (d - 2) then 0 else 1) else 2) ∧ (r = 0 ∨ 0 < f)) :
    ∃ e, addLoop (-1) f d r = some e ∧ wk e = wk d - r ∧ e ≤ d ∧ (0 < r → isWeekend e = false ∧ e < d) ∧ (r = 0 → e = d) := by
  induction f generalizing d r with
  | zero =>
    obtain rfl : r = 0 := by omega
    exact ⟨d, rfl, by simp, by simp, by simp, by simp⟩
  | succ f ih =>
    cases r with
    | zero => exact ⟨d, rfl, by simp, by simp, by simp, by simp⟩
    | succ r =>
      rw [addLoop, show d + -1 = d - 1 by omega]
      have w1 := isWeekend_iff (d - 1)
      have w2 := isWeekend_iff (d - 2)
      have w3 := isWeekend_iff (d - 3)
      by_cases hw : isWeekend (d - 1) = true
      · rw [if_pos hw]
        obtain ⟨e, h1, h2, h3, h4, -⟩ := ih (r + 1) (d - 1) (by
          rw [show d - 1 - 1 = d - 2 by omega, show d - 1 - 2 = d - 3 by omega]
          rw [if_pos hw] at hf
          by_cases hw2 : isWeekend (d - 2) = true
          · rw [if_pos hw2] at hf ⊢
            have : ¬ isWeekend (d - 3) = true := by rw [w3]; rw [w1] at hw; rw [w2] at hw2; omega
            rw [if_neg this]; omega
          · rw [if_neg hw2] at hf ⊢; omega)
        refine ⟨e, h1, ?_, by omega, fun _ => ⟨(h4 (by omega)).1, by omega⟩, by omega⟩
        rw [h2, wk_pred d, if_pos hw]
      · rw [if_neg hw]
        obtain ⟨e, h1, h2, h3, h4, h5⟩ := ih r (d - 1) (by
          rw [if_neg hw] at hf
          constructor
          · split <;> (try split) <;> omega
          · omega)
        refine ⟨e, h1, ?_, by omega, fun _ => ?_, by omega⟩
        · rw [h2, wk_pred d, if_neg hw]; push_cast; omega
        · rcases Nat.eq_zero_or_pos r with h0 | h0
          · rw [h5 h0]; exact ⟨by simpa using hw, by omega⟩
          · exact ⟨(h4 h0).1, by omega⟩

/-! ## Leap seconds -/

/-- The table rows are more than 100 s apart and each raises the offset by at most one. -/
def GoodSteps : Int → List (Int × Int) → Prop
  | _, [] => True
  | off, (t, v) :: l => (v = off ∨ v = off + 1) ∧ (∀ e ∈ l.head?, t + 100 < e.1) ∧ GoodSteps v l

/-- `leapLoop` on thresholds. -/
def stepLoop (u : Int) (off : Int) : List (Int × Int) → Int
  | [] => off
  | e :: t => if e.1 ≤ u then stepLoop u e.2 t else off

theorem leapLoop_eq (u off : Int) (l : List (Int × Int × Int × Int)) :
    leapLoop u off l = stepLoop u off (l.map (fun e => (daysFromCivil e.1 e.2.1 e.2.2.1 * 86400, e.2.2.2))) := by
  induction l generalizing off with
  | nil => rfl
  | cons e t ih => simp only [leapLoop, List.map_cons, stepLoop, ih]

theorem step_bounds {off : Int} {l : List (Int × Int)} (h : GoodSteps off l) (u : Int) :
    off ≤ stepLoop u off l ∧ stepLoop u off l ≤ off + l.length := by
  induction l generalizing off with
  | nil => simp [stepLoop]
  | cons e t ih =>
    obtain ⟨h1, -, h3⟩ := h
    rw [stepLoop, List.length_cons]
    have := ih h3
    split <;> push_cast <;> omega

theorem step_step {off : Int} {l : List (Int × Int)} (h : GoodSteps off l) {u v : Int} (h1 : u ≤ v) :
    stepLoop u off l ≤ stepLoop v off l ∧ (v ≤ u + 100 → stepLoop v off l ≤ stepLoop u off l + 1) := by
  induction l generalizing off with
  | nil => simp [stepLoop]
  | cons e t ih =>
    obtain ⟨a1, a2, a3⟩ := h
    rw [stepLoop, stepLoop]
    by_cases hu : e.1 ≤ u
    · rw [if_pos hu, if_pos (by omega)]; exact ih a3
    · rw [if_neg hu]
      by_cases hv : e.1 ≤ v
      · rw [if_pos hv]
        refine ⟨by have := (step_bounds a3 v).1; omega, fun h2 => ?_⟩
        have : stepLoop v e.2 t = e.2 := by
          cases t with
          | nil => rfl
          | cons e' t =>
            have := a2 e' (by simp)
            rw [stepLoop, if_neg (by omega)]
        omega
      · rw [if_neg hv]; omega

def leapSteps : List (Int × Int) :=
  leapSeconds.map (fun e => (daysFromCivil e.1 e.2.1 e.2.2.1 * 86400, e.2.2.2))

theorem leap_good : GoodSteps 10 leapSteps := by
  simp [leapSteps, leapSeconds, GoodSteps]
  decide

theorem tai_eq (u : Int) : taiMinusUtc u = stepLoop u 10 leapSteps := leapLoop_eq _ _ _

theorem tai_mono {u v : Int} (h : u ≤ v) : taiMinusUtc u ≤ taiMinusUtc v := by
  rw [tai_eq, tai_eq]; exact (step_step leap_good h).1

theorem tai_step {u v : Int} (h : u ≤ v) (h' : v ≤ u + 100) : taiMinusUtc v ≤ taiMinusUtc u + 1 := by
  rw [tai_eq, tai_eq]; exact (step_step leap_good h).2 h'

theorem tai_bounds (u : Int) : 10 ≤ taiMinusUtc u ∧ taiMinusUtc u ≤ 38 := by
  rw [tai_eq]
  have := step_bounds leap_good u
  have hl : (leapSteps.length : Int) = 28 := by decide
  omega

theorem tai_unix (u : Int) : taiToUnixSeconds (unixToTaiSeconds u) = u := by
  unfold taiToUnixSeconds unixToTaiSeconds
  simp only
  obtain ⟨k, hk⟩ : ∃ k, k = taiMinusUtc u := ⟨_, rfl⟩
  have hb := tai_bounds u
  rw [← hk] at hb ⊢
  have h1 := tai_mono (show u ≤ u + k by omega)
  have h2 := tai_step (show u ≤ u + k by omega) (by omega)
  rw [← hk] at h1 h2
  rcases (by omega : taiMinusUtc (u + k) = k ∨ taiMinusUtc (u + k) = k + 1) with h | h
  · rw [h, show u + k - k = u by omega, ← hk, show u + k - k = u by omega, ← hk]; omega
  · rw [h, show u + k - (k + 1) = u - 1 by omega]
    have h3 := tai_mono (show u - 1 ≤ u by omega)
    have h4 := tai_step (show u - 1 ≤ u + k by omega) (by omega)
    have h5 : taiMinusUtc (u - 1) = k := by omega
    rw [h5, show u + k - k = u by omega, ← hk]; omega

end Verif.Time
