import Verif.Store.Lemmas
namespace Verif.Store
variable {T : Type} {c : Codec T} {merge : T → T → T} {Same : T → T → Prop} {d0 : T}

/-- The journal holds whole entries that replay to a state equivalent to `mem`, then possibly the first
bytes of an entry. -/
def Holds (c : Codec T) (merge : T → T → T) (Same : T → T → Prop) (d0 : T) (torn : Bool) (mem : T)
    (count : Nat) (file : Option Bytes) : Prop :=
  ∃ (ops : List (Op T)) (tail : Bytes), file.getD [] = ops.flatMap (entry c) ++ tail ∧ (∀ o ∈ ops, Fits c o) ∧ Stops c tail ∧
    (torn = false → tail = []) ∧ count = ops.length ∧
    ∀ d, Same d d0 → Same (ops.foldl (fun a o => o.apply merge a) d) mem

theorem mount_getD (d : T) (file : Option Bytes) :
    mount c merge d file = replay c merge d (file.getD []) := by cases file <;> rfl

theorem Holds.boot {b : Bool} {mem : T} {n : Nat} {file : Option Bytes}
    (h : Holds c merge Same d0 b mem n file) (d : T) (hd : Same d d0) (tmp : Option Bytes)
    (hE : Equivalence Same) :
    ∃ s, boot c merge d file tmp = .ok ⟨s, n, file, tmp⟩ ∧ Same s mem ∧
      Holds c merge Same d0 b s n file := by
  obtain ⟨ops, tail, hf, hfit, hst, ht, hn, hs⟩ := h
  refine ⟨ops.foldl (fun a o => o.apply merge a) d, ?_, hs d hd, ops, tail, hf, hfit, hst, ht, hn, ?_⟩
  · simp only [Store.boot, mount_getD, hf, replay_journal_eq ops hfit hst, hn]
  · intro d' hd'
    exact hE.trans (hs d' hd') (hE.symm (hs d hd))

theorem Holds.append {mem mem' : T} {n : Nat} {file : Option Bytes}
    (h : Holds c merge Same d0 false mem n file) (hg : Grows merge Same mem mem')
    (hfit : Fits c (.delta mem')) :
    Holds c merge Same d0 false mem' (n + 1) (appendTo file (entry c (.delta mem'))) := by
  obtain ⟨ops, tail, hf, hfits, _, ht, hn, hs⟩ := h
  refine ⟨ops ++ [.delta mem'], [], ?_, ?_, stops_nil, fun _ => rfl, by simp [hn], ?_⟩
  · simp [appendTo, hf, ht rfl]
  · intro o ho
    rcases List.mem_append.1 ho with ho | ho
    · exact hfits o ho
    · rw [List.mem_singleton.1 ho]; exact hfit
  · intro d hd
    rw [List.foldl_append]
    exact hg _ (hs d hd)

theorem Holds.cut {mem mem' : T} {n : Nat} {file : Option Bytes}
    (h : Holds c merge Same d0 false mem n file) (hfit : Fits c (.delta mem')) {k : Nat}
    (hk : k < (entry c (.delta mem')).length) :
    Holds c merge Same d0 true mem n (appendTo file ((entry c (.delta mem')).take k)) := by
  obtain ⟨ops, tail, hf, hfits, _, ht, hn, hs⟩ := h
  exact ⟨ops, (entry c (.delta mem')).take k, by simp [appendTo, hf, ht rfl], hfits,
    fun n => nextEntry_prefix hfit n hk, by simp, hn, hs⟩

theorem Holds.weaken {b : Bool} {mem : T} {n : Nat} {file : Option Bytes}
    (h : Holds c merge Same d0 false mem n file) : Holds c merge Same d0 b mem n file := by
  obtain ⟨ops, tail, hf, hfits, hst, ht, hn, hs⟩ := h
  exact ⟨ops, tail, hf, hfits, hst, fun _ => ht rfl, hn, hs⟩

theorem Holds.snapshot (hE : Equivalence Same) {mem : T} (hfit : Fits c (.snapshot mem)) :
    Holds c merge Same d0 false mem 1 (some (entry c (.snapshot mem))) :=
  ⟨[.snapshot mem], [], by simp, by simpa using hfit, stops_nil, fun _ => rfl, rfl,
    fun _ _ => hE.refl mem⟩

theorem Holds.fresh : Holds c merge Same d0 false d0 0 none :=
  ⟨[], [], rfl, by simp, stops_nil, fun _ => rfl, rfl, fun _ h => h⟩

theorem take_of_le {l : Bytes} {k : Nat} (h : ¬ k < l.length) : l.take k = l :=
  List.take_of_length_le (by omega)

/-- A crash inside a mutation: before or after, never anything else. -/
theorem crash_cases (hE : Equivalence Same) {x : Node T}
    (h : Holds c merge Same d0 false x.mem x.count x.file) {f : T → T} {k : Nat} {d : T}
    (hok : EvOk c merge Same d0 x (.crashMutate f k d)) :
    ∃ y, x.step c merge (.crashMutate f k d) = .ok y ∧ Holds c merge Same d0 true y.mem y.count y.file ∧
      (k < (entry c (.delta (f x.mem))).length → Same y.mem x.mem) ∧
      (¬ k < (entry c (.delta (f x.mem))).length → Same y.mem (f x.mem)) := by
  obtain ⟨hg, hfit, hd⟩ := hok
  by_cases hk : k < (entry c (.delta (f x.mem))).length
  · obtain ⟨s, e, hs, hh⟩ := (h.cut hfit hk).boot d hd x.temp hE
    exact ⟨_, e, hh, fun _ => hs, fun hn => absurd hk hn⟩
  · obtain ⟨s, e, hs, hh⟩ := (h.append hg hfit).boot d hd x.temp hE
    refine ⟨⟨s, x.count + 1, _, x.temp⟩, ?_, hh.weaken, fun hn => absurd hn hk, fun _ => hs⟩
    simp only [Node.step, Node.torn, take_of_le hk]
    exact e

theorem run_ok (hE : Equivalence Same) : ∀ (es : List (Ev T)) (b : Bool) (x : Node T) (s : T),
    Same s x.mem → Holds c merge Same d0 b x.mem x.count x.file → Lawful c merge Same d0 x es →
    tornFree b es → ∃ y, x.run c merge es = .ok y ∧ Recovers Same s es y.mem := by
  intro es
  induction es with
  | nil => intro b x s hs _ _ _; exact ⟨x, rfl, .nil hs⟩
  | cons e es ih =>
    intro b x s hs h hl ht
    obtain ⟨hok, hl⟩ := hl
    cases e with
    | mutate f =>
      obtain ⟨rfl, ht⟩ := ht
      obtain ⟨y, ey, ry⟩ := ih false (x.mutate c f) (f x.mem) (hE.refl _) (h.append hok.1 hok.2) (hl _ rfl) ht
      exact ⟨y, ey, .mutate hs ry⟩
    | compact =>
      obtain ⟨y, ey, ry⟩ := ih false (x.compact c) s hs (.snapshot hE hok) (hl _ rfl) ht
      exact ⟨y, ey, .compact ry⟩
    | restart d =>
      obtain ⟨m, em, hm, hh⟩ := h.boot d hok x.temp hE
      obtain ⟨y, ey, ry⟩ := ih b ⟨m, x.count, x.file, x.temp⟩ s (hE.trans hs (hE.symm hm)) hh (hl _ em) ht
      refine ⟨y, ?_, .restart ry⟩
      simp only [Node.run, Node.step, em, ey]
    | crashMutate f k d =>
      obtain ⟨rfl, ht⟩ := ht
      obtain ⟨m, em, hh, h1, h2⟩ := crash_cases hE h hok
      by_cases hk : k < (entry c (.delta (f x.mem))).length
      · obtain ⟨y, ey, ry⟩ := ih true m s (hE.trans hs (hE.symm (h1 hk))) hh (hl _ em) ht
        exact ⟨y, by simp only [Node.run, em, ey], .crashLost ry⟩
      · obtain ⟨y, ey, ry⟩ := ih true m (f x.mem) (hE.symm (h2 hk)) hh (hl _ em) ht
        exact ⟨y, by simp only [Node.run, em, ey], .crashKept hs ry⟩
    | crashCompact r k d =>
      obtain ⟨hfit, hd⟩ := hok
      cases r with
      | true =>
        obtain ⟨m, em, hm, hh⟩ := (Holds.snapshot (c := c) (merge := merge) (d0 := d0) hE hfit).boot d hd none hE
        rw [tornFree, Bool.not_true, Bool.and_false] at ht
        obtain ⟨y, ey, ry⟩ := ih false ⟨m, 1, _, none⟩ s (hE.trans hs (hE.symm hm)) hh (hl _ em) ht
        refine ⟨y, ?_, .crashCompact ry⟩
        simp only [Node.run, Node.step, em, ey]
      | false =>
        obtain ⟨m, em, hm, hh⟩ := h.boot d hd (some ((entry c (.snapshot x.mem)).take k)) hE
        rw [tornFree, Bool.not_false, Bool.and_true] at ht
        obtain ⟨y, ey, ry⟩ := ih b ⟨m, x.count, x.file, _⟩ s (hE.trans hs (hE.symm hm)) hh (hl _ em) ht
        refine ⟨y, ?_, .crashCompact ry⟩
        simp only [Node.run, Node.step, em, ey]

/-- Without cut appends the journal is whole at the end as well. -/
theorem run_whole (hE : Equivalence Same) : ∀ (es : List (Ev T)) (x : Node T),
    Holds c merge Same d0 false x.mem x.count x.file → Lawful c merge Same d0 x es → noCut es →
    ∃ y, x.run c merge es = .ok y ∧ Holds c merge Same d0 false y.mem y.count y.file := by
  intro es
  induction es with
  | nil => intro x h _ _; exact ⟨x, rfl, h⟩
  | cons e es ih =>
    intro x h hl hn
    obtain ⟨hok, hl⟩ := hl
    have hn' : noCut es := fun f k d hm => hn f k d (List.mem_cons_of_mem _ hm)
    cases e with
    | mutate f => exact ih (x.mutate c f) (h.append hok.1 hok.2) (hl _ rfl) hn'
    | compact => exact ih (x.compact c) (.snapshot hE hok) (hl _ rfl) hn'
    | restart d =>
      obtain ⟨m, em, hm, hh⟩ := h.boot d hok x.temp hE
      obtain ⟨y, ey, hy⟩ := ih ⟨m, x.count, x.file, x.temp⟩ hh (hl _ em) hn'
      exact ⟨y, by simp only [Node.run, Node.step, em, ey], hy⟩
    | crashMutate f k d => exact absurd (List.mem_cons_self ..) (hn f k d)
    | crashCompact r k d =>
      obtain ⟨hfit, hd⟩ := hok
      cases r with
      | true =>
        obtain ⟨m, em, hm, hh⟩ := (Holds.snapshot (c := c) (merge := merge) (d0 := d0) hE hfit).boot d hd none hE
        obtain ⟨y, ey, hy⟩ := ih ⟨m, 1, _, none⟩ hh (hl _ em) hn'
        exact ⟨y, by simp only [Node.run, Node.step, em, ey], hy⟩
      | false =>
        obtain ⟨m, em, hm, hh⟩ := h.boot d hd (some ((entry c (.snapshot x.mem)).take k)) hE
        obtain ⟨y, ey, hy⟩ := ih ⟨m, x.count, x.file, _⟩ hh (hl _ em) hn'
        exact ⟨y, by simp only [Node.run, Node.step, em, ey], hy⟩

theorem noCut_tornFree : ∀ (es : List (Ev T)), noCut es → tornFree false es := by
  intro es
  induction es with
  | nil => intro _; trivial
  | cons e es ih =>
    intro hn
    have hn' : noCut es := fun f k d hm => hn f k d (List.mem_cons_of_mem _ hm)
    cases e with
    | mutate f => exact ⟨rfl, ih hn'⟩
    | compact => exact ih hn'
    | restart d => exact ih hn'
    | crashMutate f k d => exact absurd (List.mem_cons_self ..) (hn f k d)
    | crashCompact r k d => exact ih hn'

end Verif.Store
