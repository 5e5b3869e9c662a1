import Verif.Vm.NanSteps

/-!
# C107: eight-byte values behave as sixteen-byte values, and own their boxes

Specification: `Verif/Vm/NanSpec.lean`.  The virtual machine can be built with two representations of
its values.  Run the same history on both: fill registers, copy, take out and drop values, change them
in place, apply operators.  The two must show the same, and memory must be used right.
-/
namespace Verif.Props
open Verif.Vm
variable {α : Type}

/-- **C107, any history.**  The machine with eight-byte registers uses no memory that is not live and
frees nothing twice: it stops only when the allocator fails.  It shows what the other machine shows,
and each register reads as the other machine's. -/
theorem C107_history (pick : Mem α → Option Nat) (hk : GoodAllocator pick) (K : Ops α) (hK : GoodOps K)
    (es : List (Ev α)) (hes : ∀ e ∈ es, GoodEvent e) :
    Narrow.start.run pick K es = .error .oom ∨
    ∃ s os, Narrow.start.run pick K es = .ok (s, os) ∧
      List.Forall₂ SameOut os (Fat.run K (fun _ => none) es).2 ∧
      ∀ i, match s.regs i, (Fat.run K (fun _ => none) es).1 i with
        | none, none => True
        | some w, some v => ∃ u, toRuntime s.mem w = .ok u ∧ Same u v
        | _, _ => False := by
  rcases Inv.run (strict := False) hk hK es Inv.start hes (fun h => h.elim) with h | ⟨s, os, h, hi, ho⟩
  · exact .inl h
  · refine .inr ⟨s, os, h, ho, fun i => ?_⟩
    cases hw : s.regs i with
    | none => rw [(hi.filled i).1 hw]; trivial
    | some w =>
      obtain ⟨v, hv⟩ := hi.filled_some hw
      rw [hv]
      obtain ⟨u, h1, h2, _⟩ := (hi.rep i w v hw hv).read
      exact ⟨u, h1, h2⟩

/-- **C107, boxes.**  After any history every live box belongs to one register and no other, so
nothing is leaked; and when all registers are empty no box is left. -/
theorem C107_boxes (pick : Mem α → Option Nat) (hk : GoodAllocator pick) (K : Ops α) (hK : GoodOps K)
    (es : List (Ev α)) (hes : ∀ e ∈ es, GoodEvent e) (s : Narrow α)
    (os : List (Option (Except Nat (RV α)))) (h : Narrow.start.run pick K es = .ok (s, os)) :
    (∀ p, s.mem p ≠ none →
      ∃ i, (∃ w, s.regs i = some w ∧ isHeap w = true ∧ ptrOf w = p) ∧
        ∀ j, (∃ w, s.regs j = some w ∧ isHeap w = true ∧ ptrOf w = p) → j = i) ∧
    ((∀ i, (Fat.run K (fun _ => none) es).1 i = none) → ∀ p, s.mem p = none) := by
  rcases Inv.run (strict := False) hk hK es Inv.start hes (fun h => h.elim) with h' | ⟨s', os', h', hi, _⟩
  · rw [h] at h'; cases h'
  · rw [h] at h'
    cases h'
    refine ⟨fun p hp => ?_, fun hall p => ?_⟩
    · obtain ⟨i, w, h1, h2, h3⟩ := hi.owned p hp
      refine ⟨i, ⟨w, h1, h2, h3⟩, ?_⟩
      rintro j ⟨w', g1, g2, g3⟩
      exact hi.once j i w' w g1 h1 g2 h2 (by rw [g3, h3])
    · cases hp : s.mem p with
      | none => rfl
      | some u =>
        obtain ⟨i, w, h1, _⟩ := hi.owned p (by rw [hp]; simp)
        rw [(hi.filled i).2 (hall i)] at h1
        cases h1

/-- What a machine says of one of its values agrees with the value: whole number, truth, type. -/
def Agrees (truthy : RV α → Bool) (name : α → Nat) (m : Mem α) (w : Nat) (v : RV α) : Prop :=
  asInt m w = .ok v.int? ∧ narrowTruthy truthy m w = .ok (truthy v) ∧
    narrowTypeName name m w = .ok (typeName name v)

/-- **C107, questions.**  After any history, every register gives its whole number, its truth and its
type as the other machine's does, whatever truth means for floats and the other values. -/
theorem C107_questions (pick : Mem α → Option Nat) (hk : GoodAllocator pick) (K : Ops α)
    (hK : GoodOps K) (truthy : RV α → Bool) (name : α → Nat)
    (hb : ∀ b, truthy (.bool b) = b) (hn : ∀ n, truthy (.int n) = (n != 0))
    (hs : ∀ u v, Same u v → truthy u = truthy v)
    (es : List (Ev α)) (hes : ∀ e ∈ es, GoodEvent e) (s : Narrow α)
    (os : List (Option (Except Nat (RV α)))) (h : Narrow.start.run pick K es = .ok (s, os))
    (i w : Nat) (v : RV α) (hw : s.regs i = some w)
    (hv : (Fat.run K (fun _ => none) es).1 i = some v) : Agrees truthy name s.mem w v := by
  rcases Inv.run (strict := False) hk hK es Inv.start hes (fun h => h.elim) with h' | ⟨s', os', h', hi, _⟩
  · rw [h] at h'; cases h'
  · rw [h] at h'
    cases h'
    have hint : ∀ u, Same u v → u.int? = v.int? := by
      rintro u (rfl | ⟨x, y, rfl, rfl, _⟩) <;> rfl
    have hname : ∀ u, Same u v → typeName name u = typeName name v := by
      rintro u (rfl | ⟨x, y, rfl, rfl, _⟩) <;> rfl
    rcases hi.rep i w v hw hv with ⟨u, su, hu⟩ | ⟨hh, u, hu, su, _⟩
    · have e1 := hu.asInt s.mem
      have e2 := hu.asBool
      have e3 := hu.asFloat
      have e4 := hu.toRuntime s.mem
      have e5 := hu.not_heap
      refine ⟨by rw [e1, hint u su], ?_, ?_⟩
      · rw [← hs u v su]
        unfold narrowTruthy
        rw [e2, e1, e4]
        cases u <;> simp [RV.bool?, RV.int?, hb, hn]
      · rw [← hname u su]
        unfold narrowTypeName
        rw [e2, e1, e3]
        cases u <;> simp [RV.bool?, RV.int?, RV.float?, typeName, asHeap, e5]
        exact hu.elim
    · have e1 := heap_asInt hh s.mem u hu
      have e2 := heap_asBool hh
      have e3 := heap_asFloat hh
      have e4 : toRuntime s.mem w = .ok u := by rw [heap_toRuntime hh, heapRef, hu]
      refine ⟨by rw [e1, hint u su], ?_, ?_⟩
      · rw [← hs u v su]
        unfold narrowTruthy
        rw [e2, e1, e4]
        cases u <;> simp [RV.int?, hn]
      · rw [← hname u su]
        unfold narrowTypeName
        rw [e2, e1, e3]
        have : asHeap s.mem w = .ok (some u) := by simp [asHeap, hh, heapRef, hu]
        cases u <;> simp [RV.int?, typeName, this]

/-- **C107, one value.**  Every value comes back from its eight bytes as it was, and "not a number"
as "not a number"; taking it out leaves memory as it was. -/
theorem C107_round_trip (pick : Mem α → Option Nat) (hk : GoodAllocator pick) (m m' : Mem α) (v : RV α)
    (hv : Wf v) (w : Nat) (h : fromRuntime pick m v = .ok (m', w)) :
    ∃ u, toRuntime m' w = .ok u ∧ intoRuntime m' w = .ok (m, u) ∧ Same u v := by
  rcases fromRuntime_ok hk hv h with ⟨rfl, u, h1, h2⟩ | ⟨h1, h2, _, rfl, _⟩
  · exact ⟨u, h2.toRuntime _, h2.intoRuntime _, h1⟩
  · obtain ⟨g1, g2⟩ := isHeap_tag h1
    have e : (m.set (ptrOf w) (some v)) (ptrOf w) = some v := by simp [Mem.set]
    refine ⟨v, by rw [heap_toRuntime h1, heapRef, e], ?_, .refl v⟩
    simp only [intoRuntime, g1, g2, tagInt, tagBool, tagNothing, heapRef, e, free, bind, Except.bind,
      pure, Except.pure]
    simp only [Bool.not_true, Bool.false_eq_true, if_false]
    rw [if_neg (by decide), if_neg (by decide), if_neg (by decide)]
    refine congrArg (fun x => Except.ok (x, v)) ?_
    funext q
    simp only [Mem.set]
    split
    · subst q; exact h2.symm
    · rfl

/-- **C107 (partial), truth values and floats.**  When values changed in place are neither truth
values, floats nor nothing, before and after, `as_bool` and `as_float` also answer as the other
machine's.  Missing: other changes in place (`C107_promoted_fails`). -/
theorem C107_scalars_partial (pick : Mem α → Option Nat) (hk : GoodAllocator pick) (K : Ops α)
    (hK : GoodOps K) (es : List (Ev α)) (hes : ∀ e ∈ es, GoodEvent e)
    (hc : Careful K (fun _ => none) es) (s : Narrow α)
    (os : List (Option (Except Nat (RV α)))) (h : Narrow.start.run pick K es = .ok (s, os))
    (i w : Nat) (v : RV α) (hw : s.regs i = some w)
    (hv : (Fat.run K (fun _ => none) es).1 i = some v) :
    asBool w = v.bool? ∧
      match asFloat w, v.float? with
      | none, none => True
      | some x, some y => x = y ∨ NotANumber x ∧ NotANumber y
      | _, _ => False := by
  rcases Inv.run (strict := True) hk hK es Inv.start hes (fun _ => hc) with h' | ⟨s', os', h', hi, _⟩
  · rw [h] at h'; cases h'
  · rw [h] at h'
    cases h'
    rcases hi.rep i w v hw hv with ⟨u, su, hu⟩ | ⟨hh, u, hu, su, hbox⟩
    · rw [hu.asBool, hu.asFloat]
      rcases su with rfl | ⟨x, y, rfl, rfl, hx, hy⟩
      · refine ⟨rfl, ?_⟩
        cases u <;> simp [RV.float?]
      · exact ⟨rfl, .inr ⟨hx, hy⟩⟩
    · have := su.symm.plain (hbox.2 trivial)
      rw [heap_asBool hh, heap_asFloat hh, this.1, this.2.1]
      exact ⟨rfl, trivial⟩

/-! ## A concrete case -/

/-- An allocator: the first of a thousand addresses that is free. -/
def nanFree (m : Mem Nat) : Option Nat := ((List.range 1000).map (16 * ·)).find? fun p => (m p).isNone

theorem nanFree_good : GoodAllocator nanFree := by
  intro m p h
  have h1 := List.find?_some h
  have h2 := List.mem_of_find?_eq_some h
  simp only [List.mem_map, List.mem_range] at h2
  obtain ⟨k, hk, rfl⟩ := h2
  refine ⟨by simpa using h1, ?_⟩
  have : (2 : Nat) ^ 48 = 281474976710656 := by decide
  omega

/-- Operators: exact on whole numbers, an error on all else. -/
def nanOps : Ops Nat := fun op a b =>
  match a, b with
  | .int x, .int y => (Op.fast op x y).elim (.error 0) .ok
  | _, _ => .error 1

theorem nanOps_good : GoodOps nanOps where
  wf := by
    intro op a b v ha hb h
    unfold nanOps at h
    split at h
    · rename_i x y
      cases hf : (Op.fast op x y : Option (RV Nat)) with
      | none => rw [hf] at h; simp at h
      | some r =>
        rw [hf] at h
        simp only [Option.elim, Except.ok.injEq] at h
        subst h
        cases op <;> simp only [Op.fast] at hf <;>
          first
          | (cases hf; trivial)
          | (split at hf
             · rename_i g
               cases hf
               simp only [fits, Bool.and_eq_true, decide_eq_true_eq] at g
               simp only [Wf]; omega
             · cases hf)
    · cases h
  same := by
    intro op a a' b b' ha hb
    rcases ha with rfl | ⟨x, y, rfl, rfl, _⟩
    · rcases hb with rfl | ⟨x, y, rfl, rfl, _⟩
      · cases h : nanOps op a b with
        | ok v => exact .refl v
        | error e => rfl
      · cases a <;> rfl
    · rcases hb with rfl | ⟨x, y, rfl, rfl, _⟩ <;> rfl
  exact := by
    intro op x y h
    simp [nanOps, fast_complete op x y h]

/-- A history with a value in a box, a number too large to be inline, a copy changed in place, and a
product that leaves the inline range. -/
def nanHistory : List (Ev Nat) :=
  [.put 0 (.other 7), .copy 0 1, .write 1 (fun | .other x => .other (x + 1) | v => v),
   .put 2 (.int (-(2 ^ 47))), .op .mul 2 2 3, .op .sub 2 2 2, .put 4 (.int (2 ^ 62)), .op .lt 2 4 5,
   .put 6 (.float 0xFFF8000000000001), .copy 6 7, .take 0, .op .add 4 4 4]

theorem nanHistory_good : ∀ e ∈ nanHistory, GoodEvent e := by
  intro e he
  simp only [nanHistory, List.mem_cons, List.not_mem_nil, or_false] at he
  rcases he with rfl | rfl | rfl | rfl | rfl | rfl | rfl | rfl | rfl | rfl | rfl | rfl <;>
    simp only [GoodEvent, Wf]
  · refine ⟨fun v hv => ?_, ?_⟩
    · cases v <;> simp_all [Wf]
    · rintro u v (rfl | ⟨x, y, rfl, rfl, h⟩)
      · exact .refl _
      · exact .inr ⟨x, y, rfl, rfl, h⟩
  all_goals decide

/-- The history runs, and shows what it should. -/
example : (Narrow.start.run nanFree nanOps nanHistory).toOption.map (·.2) =
    some [none, none, none, none, some (.error 0), none, none, none, none, none, some (.ok (.other 7)),
      some (.error 0)] := by
  decide +kernel

example : (Fat.run nanOps (fun _ => none) nanHistory).1 5 = some (.bool true) := by decide +kernel

theorem nanHistory_careful : Careful nanOps (fun _ => none) nanHistory := by
  simp only [nanHistory, Careful, CarefulEvent, true_and, and_true]
  refine ⟨?_, ?_⟩
  · intro v hv
    have : v = .other 7 := by
      have h : some v = some (.other 7) := by rw [← hv]; decide
      exact Option.some.inj h
    subst this
    simp [Plain, RV.bool?, RV.float?]
  · rintro v ⟨h1, h2, h3⟩
    cases v <;> simp_all [Plain, RV.bool?, RV.float?]

/-! ## Where it fails -/

/-- The property in full: `as_bool` too answers as the other machine's after any history. -/
def BoolsReadBack : Prop :=
  ∀ (α : Type) (pick : Mem α → Option Nat) (_ : GoodAllocator pick) (K : Ops α) (_ : GoodOps K)
    (es : List (Ev α)) (_ : ∀ e ∈ es, GoodEvent e) (s : Narrow α)
    (os : List (Option (Except Nat (RV α)))) (_ : Narrow.start.run pick K es = .ok (s, os))
    (i w : Nat) (v : RV α) (_ : s.regs i = some w) (_ : (Fat.run K (fun _ => none) es).1 i = some v),
    asBool w = v.bool?

/-- **C107 fails** of the interface alone.  A truth value once looked at through `as_runtime_mut`, even
if not changed, no longer answers `as_bool`. -/
theorem C107_promoted_fails : ¬ BoolsReadBack := by
  intro h
  have hr : ∃ s os, Narrow.start.run nanFree nanOps [.put 0 (.bool true), .write 0 id] =
      .ok (s, os) ∧ s.regs 0 = some (tagged 3 0) := by
    have e : (Narrow.start.run nanFree nanOps [.put 0 (.bool true), .write 0 id]).toOption.map
        (fun r => r.1.regs 0) = some (some (tagged 3 0)) := by decide +kernel
    cases hr : Narrow.start.run nanFree nanOps [.put 0 (.bool true), .write 0 id] with
    | error x => rw [hr] at e; simp [Except.toOption] at e
    | ok r => rw [hr] at e; exact ⟨r.1, r.2, rfl, by simpa [Except.toOption] using e⟩
  obtain ⟨s, os, h1, h2⟩ := hr
  have := h Nat nanFree nanFree_good nanOps nanOps_good _ (by
    intro e he
    simp only [List.mem_cons, List.not_mem_nil, or_false] at he
    rcases he with rfl | rfl
    · trivial
    · exact ⟨fun _ h => h, fun _ _ h => h⟩) s os h1 0 _ (.bool true) h2 rfl
  revert this
  decide +kernel

end Verif.Props
