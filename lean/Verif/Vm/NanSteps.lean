import Verif.Vm.NanInv
import Mathlib.Data.List.Forall2

/-! # The two machines in step -/
namespace Verif.Vm
variable {α : Type} {strict : Prop}

def SameOut : Option (Except Nat (RV α)) → Option (Except Nat (RV α)) → Prop
  | none, none => True
  | some a, some b => SameResult a b
  | _, _ => False

theorem Same.plain {u v : RV α} (h : Same u v) (hv : Plain v) : Plain u := by
  rcases h with rfl | ⟨x, y, rfl, rfl, _⟩
  · exact hv
  · simp [Plain, RV.float?] at hv

/-- A change in place is made to a value the machine itself boxes, and gives such a value. -/
def CarefulEvent (t : Fat α) : Ev α → Prop
  | .write i f => (∀ v, t i = some v → Plain v) ∧ ∀ v, Plain v → Plain (f v)
  | _ => True

def Careful (K : Ops α) (t : Fat α) : List (Ev α) → Prop
  | [] => True
  | e :: es => CarefulEvent t e ∧ Careful K (Fat.step K t e).1 es

theorem fast_exact (op : Op) (x y : Int) (v : RV α) (h : op.fast x y = some v) :
    v = exactAnswer op x y ∧ Wf (exactAnswer op x y : RV α) := by
  cases op <;> simp only [Op.fast] at h
  case add | sub | mul =>
    split at h
    · rename_i g
      cases h
      simp only [fits, Bool.and_eq_true, decide_eq_true_eq] at g
      refine ⟨rfl, ?_⟩
      simp only [exactAnswer, Wf]
      omega
    · cases h
  all_goals
    cases h
    exact ⟨by simp [exactAnswer, Bool.beq_eq_decide_eq, bne], trivial⟩

theorem fast_complete (op : Op) (x y : Int) (h : Wf (exactAnswer op x y : RV α)) :
    op.fast x y = some (exactAnswer op x y : RV α) := by
  cases op <;> simp only [Op.fast, exactAnswer, Wf] at h ⊢
  case add | sub | mul =>
    rw [if_pos]
    simp only [fits, Bool.and_eq_true, decide_eq_true_eq]
    omega
  all_goals simp [Bool.beq_eq_decide_eq, bne]

theorem GoodOps.fast {K : Ops α} (hK : GoodOps K) (op : Op) (x y : Int) (v : RV α)
    (h : op.fast x y = some v) : K op (.int x) (.int y) = .ok v := by
  obtain ⟨rfl, hw⟩ := fast_exact op x y v h
  exact hK.exact op x y hw

theorem fatOp_eq {K : Ops α} (hK : GoodOps K) (op : Op) (a b : RV α) : fatOp K op a b = K op a b := by
  unfold fatOp
  split
  · split
    · rename_i h; rw [hK.fast _ _ _ _ h]
    · rfl
  · rfl

theorem Rep.inlineInt {m : Mem α} {w : Nat} {v : RV α} (h : Rep strict m w v) {x : Int}
    (hx : asInlineInt w = some x) : v = .int x := by
  rcases h with ⟨u, h1, h2⟩ | ⟨h1, _⟩
  · rw [h2.asInlineInt] at hx
    cases u <;> simp [RV.int?] at hx
    subst hx
    rcases h1 with h1 | ⟨_, _, h1, _⟩
    · exact h1.symm
    · cases h1
  · rw [heap_asInlineInt h1] at hx; cases hx

theorem fromRuntime_cases (pick : Mem α → Option Nat) (hk : GoodAllocator pick) (m : Mem α) (v : RV α)
    (hv : Wf v) :
    fromRuntime pick m v = .error .oom ∨ ∃ m' w, fromRuntime pick m v = .ok (m', w) ∧ Made m v m' w := by
  cases h : fromRuntime pick m v with
  | error e => rw [fromRuntime_err h]; exact .inl rfl
  | ok r => exact .inr ⟨r.1, r.2, rfl, fromRuntime_ok hk hv h⟩

theorem heap_cases (pick : Mem α → Option Nat) (hk : GoodAllocator pick) (m : Mem α) (v : RV α) :
    heap pick m v = .error .oom ∨ ∃ m' w, heap pick m v = .ok (m', w) ∧ isHeap w = true ∧
      m (ptrOf w) = none ∧ m' = m.set (ptrOf w) (some v) := by
  cases h : heap pick m v with
  | error e => rw [heap_err h]; exact .inl rfl
  | ok r => exact .inr ⟨r.1, r.2, rfl, heap_ok hk h⟩

/-- What an operator gives on eight-byte values is what it gives on the values they stand for. -/
theorem narrowOp_cases {pick : Mem α → Option Nat} (hk : GoodAllocator pick) {K : Ops α}
    (hK : GoodOps K) {m : Mem α} {a b : Nat} {u v : RV α} (op : Op) (ha : Rep strict m a u) (hb : Rep strict m b v) :
    narrowOp pick K m op a b = .error .oom ∨
    (∃ e, narrowOp pick K m op a b = .ok (m, .error e) ∧ fatOp K op u v = .error e) ∨
    ∃ m' w r, narrowOp pick K m op a b = .ok (m', .ok w) ∧ fatOp K op u v = .ok r ∧ Fresh strict m r m' w := by
  rw [fatOp_eq hK]
  -- the answer for values standing for the operands
  have finish : ∀ x y : RV α, Wf x → Wf y → Same x u → Same y v →
      ∀ z : Except Stop (Mem α × Except Nat Nat),
      z = (match K op x y with
        | .ok r => (fromRuntime pick m r).bind fun q => .ok (q.1, .ok q.2)
        | .error e => .ok (m, .error e)) →
      z = .error .oom ∨ (∃ e, z = .ok (m, .error e) ∧ K op u v = .error e) ∨
      ∃ m' w r, z = .ok (m', .ok w) ∧ K op u v = .ok r ∧ Fresh strict m r m' w := by
    intro x y hx hy sx sy z hz
    have hs := hK.same op x u y v sx sy
    cases hkx : K op x y with
    | error e =>
      rw [hkx] at hz hs
      cases hku : K op u v with
      | error e' => rw [hku] at hs; cases hs; exact .inr (.inl ⟨_, hz, rfl⟩)
      | ok r => rw [hku] at hs; exact hs.elim
    | ok r =>
      rw [hkx] at hz hs
      cases hku : K op u v with
      | error e' => rw [hku] at hs; exact hs.elim
      | ok r' =>
        rw [hku] at hs
        rcases fromRuntime_cases pick hk m r (hK.wf op x y r hx hy hkx) with h | ⟨m', w, h, hm⟩
        · simp only [h] at hz
          exact .inl hz
        · simp only [h] at hz
          exact .inr (.inr ⟨m', w, r', hz, rfl, hm.fresh hs⟩)
  obtain ⟨ua, hua, sua, wua⟩ := ha.read
  obtain ⟨ub, hub, sub, wub⟩ := hb.read
  refine finish ua ub wua wub sua sub _ ?_
  unfold narrowOp
  split
  · rename_i x y hx hy
    have h1 := ha.inlineInt hx
    have h2 := hb.inlineInt hy
    subst h1; subst h2
    have e1 : ua = .int x := by
      rcases sua with h | ⟨_, _, _, h, _⟩
      · exact h
      · cases h
    have e2 : ub = .int y := by
      rcases sub with h | ⟨_, _, _, h, _⟩
      · exact h
      · cases h
    subst e1; subst e2
    split
    · rename_i r hr
      rw [hK.fast _ _ _ _ hr]
      rfl
    · split
      · rename_i h; rw [h]; rfl
      · rename_i h; rw [h]
  · rw [hua, hub]
    simp only [bind, Except.bind]
    cases K op ua ub <;> rfl

/-- Changing a value in place. -/
theorem Inv.write {pick : Mem α → Option Nat} (hk : GoodAllocator pick) {s : Narrow α} {t : Fat α}
    (h : Inv strict s t) {i w : Nat} {v : RV α} (hi : s.regs i = some w) (hv : t i = some v)
    {f : RV α → RV α} (hf : ∀ v, Wf v → Wf (f v)) (hs : ∀ u v, Same u v → Same (f u) (f v))
    (hc : strict → Plain v ∧ ∀ v, Plain v → Plain (f v)) :
    writeThrough pick s.mem w f = .error .oom ∨
    ∃ m w', writeThrough pick s.mem w f = .ok (m, w') ∧
      Inv strict ⟨m, fun r => if r = i then some w' else s.regs r⟩
        (fun r => if r = i then some (f v) else t r) := by
  have hr := h.rep i w v hi hv
  have box : ∀ u, Same u v → Wf u → Boxable strict (f u) := fun u su wu =>
    ⟨hf u wu, fun hst => (hc hst).2 u (su.plain (hc hst).1)⟩
  by_cases hh : isHeap w = true
  · obtain ⟨u, hu, su, wu⟩ := hr.live hh
    refine .inr ⟨s.mem.set (ptrOf w) (some (f u)), w, ?_, ?_, ?_, ?_, ?_⟩
    · simp [writeThrough, makeHeapMut, hh, heapRef, hu, bind, Except.bind, pure, Except.pure]
    · intro r
      have := h.filled r
      simp only
      split <;> simp_all
    · intro r x y hx hy
      simp only at hx hy
      split at hx
      · rename_i e
        rw [if_pos e] at hy
        cases hx; cases hy
        exact .inr ⟨hh, f u, by simp [Mem.set], hs _ _ su, box u su wu.1⟩
      · rename_i e
        rw [if_neg e] at hy
        refine (h.rep r x y hx hy).mono fun hxx => ?_
        simp only [Mem.set]
        rw [if_neg]
        intro e'
        exact e (h.once r i x w hx hi hxx hh e')
    · intro p hp
      simp only [Mem.set] at hp
      split at hp
      · rename_i e
        exact ⟨i, w, by simp, hh, e.symm⟩
      · obtain ⟨r, x, g1, g2, g3⟩ := h.owned p hp
        refine ⟨r, x, ?_, g2, g3⟩
        simp only
        split
        · subst r; rw [hi] at g1; exact g1
        · exact g1
    · intro a b x y ha hb
      simp only at ha hb
      refine h.once a b x y ?_ ?_
      · split at ha
        · subst a; cases ha; exact hi
        · exact ha
      · split at hb
        · subst b; cases hb; exact hi
        · exact hb
  · obtain ⟨u, hu, su, wu⟩ := hr.read
    rcases heap_cases pick hk s.mem u with he | ⟨m', w', he, g1, g2, rfl⟩
    · left
      simp [writeThrough, makeHeapMut, hh, hu, he, bind, Except.bind]
    · right
      refine ⟨s.mem.set (ptrOf w') (some (f u)), w', ?_, ?_⟩
      · have hw : isHeap w = false := by simpa using hh
        simp only [writeThrough, makeHeapMut, hw, hu, he, bind, Except.bind, pure, Except.pure, dropWord,
          Bool.not_false, if_true, heapRef, Bool.false_eq_true, if_false, Mem.set]
        rw [Except.ok.injEq, Prod.mk.injEq]
        refine ⟨?_, rfl⟩
        funext r
        simp only [Mem.set]
        split <;> rfl
      · have hfresh : Fresh strict s.mem (f v) (s.mem.set (ptrOf w') (some (f u))) w' :=
          .inr ⟨g1, g2, f u, hs _ _ su, box u su wu, rfl⟩
        obtain ⟨s', h1, h2⟩ := h.assign (i := i) hfresh
        simp only [Narrow.assign, hi, dropWord, hh, bind, Except.bind, pure, Except.pure,
          Bool.false_eq_true, if_false, Except.ok.injEq] at h1
        subst h1
        exact h2

theorem Inv.filled_some {s : Narrow α} {t : Fat α} (h : Inv strict s t) {i w : Nat} (hi : s.regs i = some w) :
    ∃ v, t i = some v := by
  cases e : t i with
  | none => rw [(h.filled i).2 e] at hi; cases hi
  | some v => exact ⟨v, rfl⟩

/-- One event. -/
theorem Inv.step {pick : Mem α → Option Nat} (hk : GoodAllocator pick) {K : Ops α} (hK : GoodOps K)
    {s : Narrow α} {t : Fat α} (h : Inv strict s t) (e : Ev α) (he : GoodEvent e)
    (hc : strict → CarefulEvent t e) :
    s.step pick K e = .error .oom ∨
    ∃ s' o, s.step pick K e = .ok (s', o) ∧ Inv strict s' (Fat.step K t e).1 ∧
      SameOut o (Fat.step K t e).2 := by
  cases e with
  | put i v =>
    rcases fromRuntime_cases pick hk s.mem v he with g | ⟨m, w, g, hm⟩
    · left; simp [Narrow.step, g, bind, Except.bind]
    · obtain ⟨s', h1, h2⟩ := h.assign (i := i) (hm.fresh (.refl v))
      exact .inr ⟨s', none, by simp [Narrow.step, g, h1, bind, Except.bind, pure, Except.pure], h2,
        trivial⟩
  | copy i j =>
    cases hi : s.regs i with
    | none =>
      have := (h.filled i).1 hi
      exact .inr ⟨s, none, by simp [Narrow.step, hi], by simpa [Fat.step, this] using h,
        by simp [Fat.step, this, SameOut]⟩
    | some w =>
      obtain ⟨v, hv⟩ := h.filled_some hi
      have hr := h.rep i w v hi hv
      by_cases hh : isHeap w = true
      · obtain ⟨u, hu, su, wu⟩ := hr.live hh
        rcases heap_cases pick hk s.mem u with g | ⟨m, w', g, g1, g2, rfl⟩
        · left; simp [Narrow.step, hi, cloneWord, hh, heapRef, hu, g, bind, Except.bind]
        · obtain ⟨s', h1, h2⟩ := h.assign (i := j) (v := v) (w := w') (.inr ⟨g1, g2, u, su, wu, rfl⟩)
          refine .inr ⟨s', none, ?_, by simpa [Fat.step, hv] using h2, by simp [Fat.step, hv, SameOut]⟩
          simp [Narrow.step, hi, cloneWord, hh, heapRef, hu, g, h1, bind, Except.bind, pure,
            Except.pure]
      · have hf : Fresh strict s.mem v s.mem w := by
          rcases hr with hr | ⟨hr, _⟩
          · exact .inl ⟨rfl, hr⟩
          · exact absurd hr hh
        obtain ⟨s', h1, h2⟩ := h.assign (i := j) hf
        refine .inr ⟨s', none, ?_, by simpa [Fat.step, hv] using h2, by simp [Fat.step, hv, SameOut]⟩
        simp [Narrow.step, hi, cloneWord, hh, h1, bind, Except.bind, pure, Except.pure]
  | take i =>
    cases hi : s.regs i with
    | none =>
      have := (h.filled i).1 hi
      exact .inr ⟨s, none, by simp [Narrow.step, hi], by simpa [Fat.step, this] using h,
        by simp [Fat.step, this, SameOut]⟩
    | some w =>
      obtain ⟨v, hv⟩ := h.filled_some hi
      have hr := h.rep i w v hi hv
      obtain ⟨m, hd, hm, hinv⟩ := h.remove hi
      have key : ∃ u, intoRuntime s.mem w = .ok (m, u) ∧ Same u v := by
        rcases hr with ⟨u, h1, h2⟩ | ⟨hh, u, hu, su, wu⟩
        · rw [h2.not_heap] at hm
          exact ⟨u, by rw [h2.intoRuntime, hm]; rfl, h1⟩
        · rw [if_pos hh] at hm
          obtain ⟨g1, g2⟩ := isHeap_tag hh
          refine ⟨u, ?_, su⟩
          simp [intoRuntime, g1, g2, tagInt, tagBool, tagNothing, heapRef, hu, free, bind, Except.bind,
            pure, Except.pure, hm]
      obtain ⟨u, h1, h2⟩ := key
      refine .inr ⟨⟨m, fun r => if r = i then none else s.regs r⟩, some (.ok u), by simp only [Narrow.step, hi, h1, bind, Except.bind, pure,
        Except.pure], by simpa [Fat.step, hv] using hinv, by simpa [Fat.step, hv, SameOut,
        SameResult] using h2⟩
  | drop i =>
    cases hi : s.regs i with
    | none =>
      have := (h.filled i).1 hi
      have e : (fun r => if r = i then none else t r) = t := by
        funext r; split
        · subst r; exact this.symm
        · rfl
      exact .inr ⟨s, none, by simp [Narrow.step, hi], by simpa [Fat.step, e] using h,
        by simp [Fat.step, SameOut]⟩
    | some w =>
      obtain ⟨m, hd, hm, hinv⟩ := h.remove hi
      refine .inr ⟨⟨m, fun r => if r = i then none else s.regs r⟩, none, by simp only [Narrow.step, hi, hd, bind, Except.bind, pure,
        Except.pure], by simpa [Fat.step] using hinv, by simp [Fat.step, SameOut]⟩
  | write i f =>
    cases hi : s.regs i with
    | none =>
      have := (h.filled i).1 hi
      exact .inr ⟨s, none, by simp [Narrow.step, hi], by simpa [Fat.step, this] using h,
        by simp [Fat.step, this, SameOut]⟩
    | some w =>
      obtain ⟨v, hv⟩ := h.filled_some hi
      rcases h.write hk hi hv he.1 he.2 (fun hst => ⟨(hc hst).1 v hv, (hc hst).2⟩) with g | ⟨m, w', g, hinv⟩
      · left; simp [Narrow.step, hi, g, bind, Except.bind]
      · refine .inr ⟨⟨m, fun r => if r = i then some w' else s.regs r⟩, none, by simp only [Narrow.step, hi, g, bind, Except.bind, pure,
          Except.pure], by simpa [Fat.step, hv] using hinv, by simp [Fat.step, hv, SameOut]⟩
  | op o i j k =>
    cases hi : s.regs i with
    | none =>
      have := (h.filled i).1 hi
      exact .inr ⟨s, none, by simp [Narrow.step, hi], by simpa [Fat.step, this] using h,
        by simp [Fat.step, this, SameOut]⟩
    | some a =>
      obtain ⟨u, hu⟩ := h.filled_some hi
      cases hj : s.regs j with
      | none =>
        have := (h.filled j).1 hj
        exact .inr ⟨s, none, by simp [Narrow.step, hi, hj], by simpa [Fat.step, this, hu] using h,
          by simp [Fat.step, this, hu, SameOut]⟩
      | some b =>
        obtain ⟨v, hv⟩ := h.filled_some hj
        rcases narrowOp_cases hk hK o (h.rep i a u hi hu) (h.rep j b v hj hv) with
          g | ⟨e, g, ge⟩ | ⟨m', w, r, g, ge, gf⟩
        · left; simp [Narrow.step, hi, hj, g, bind, Except.bind]
        · refine .inr ⟨s, some (.error e), ?_, by simpa [Fat.step, hu, hv, ge] using h,
            by simp [Fat.step, hu, hv, ge, SameOut, SameResult]⟩
          simp [Narrow.step, hi, hj, g, bind, Except.bind, pure, Except.pure]
        · obtain ⟨s', h1, h2⟩ := h.assign (i := k) gf
          refine .inr ⟨s', none, ?_, by simpa [Fat.step, hu, hv, ge] using h2,
            by simp [Fat.step, hu, hv, ge, SameOut]⟩
          simp [Narrow.step, hi, hj, g, h1, bind, Except.bind, pure, Except.pure]

/-- Any history. -/
theorem Inv.run {pick : Mem α → Option Nat} (hk : GoodAllocator pick) {K : Ops α} (hK : GoodOps K)
    (es : List (Ev α)) : ∀ {s : Narrow α} {t : Fat α}, Inv strict s t → (∀ e ∈ es, GoodEvent e) →
    (strict → Careful K t es) →
    s.run pick K es = .error .oom ∨
    ∃ s' os, s.run pick K es = .ok (s', os) ∧ Inv strict s' (Fat.run K t es).1 ∧
      List.Forall₂ SameOut os (Fat.run K t es).2 := by
  induction es with
  | nil => intro s t h _ _; exact .inr ⟨s, [], rfl, h, .nil⟩
  | cons e es ih =>
    intro s t h hes hc
    rcases h.step hk hK e (hes e (by simp)) (fun hst => (hc hst).1) with g | ⟨s1, o, g, h1, ho⟩
    · left; simp [Narrow.run, g, bind, Except.bind]
    · rcases ih h1 (fun e' he' => hes e' (by simp [he'])) (fun hst => (hc hst).2) with g' | ⟨s2, os, g', h2, hos⟩
      · left; simp [Narrow.run, g, g', bind, Except.bind]
      · exact .inr ⟨s2, o :: os, by simp [Narrow.run, g, g', bind, Except.bind, pure, Except.pure], h2,
          .cons ho hos⟩

end Verif.Vm
