import Verif.Sched.StealRound
import Verif.Sched.Demo
/-!
# The work-stealing executor (C20)

`WS.run build poll arr n 0 (WS.start cfg workers seed main p)` is the state of the multi-threaded executor after
at most `n` turns of its coordinator's loop, when in turn `i` the threads serve the messages in the order `arr i`
says. `coopStart` and `State.runSlice` are the single-threaded scheduler on the same program.
-/

namespace Verif.Props
open Verif.Sched

/-- The cooperative scheduler with the same main task and seed. -/
def coopStart {B D : Type} (build : D → B) (prioOf : B → Nat) (cfg : Config) (seed : Nat) (main : D) : State B :=
  (State.init cfg (.record seed seed [])).addTask (build main) (prioOf (build main)) true

/-- C20 (part): under the FIFO and round-robin policies, with any number of workers and any interleaving of the
threads, the multi-threaded executor never panics and is at every moment where the single-threaded run was after
some number of steps: the same polls in the same order with the same contexts and answers, the same random
choices, the same results of finished tasks; and an outcome it reports is the single-threaded outcome.

Missing: the other policies, programs that abort a task which could run, and I/O — see the `_fails` theorems. -/
theorem C20_follows_cooperative_partial {B D : Type} (build : D → B) (poll : B → Ctx → Step D × B) (prioOf : B → Nat)
    (cfg : Config) (hpol : cfg.policy = .fifo ∨ cfg.policy = .roundRobin) (workers seed : Nat) (main : D) (p : Nat)
    (arr : Nat → List (Msg D) → List (Msg D)) (harr : ∀ i l, (arr i l).Perm l)
    (hio : ∀ b ctx, (poll b ctx).1 ≠ .ioPending)
    (htame : Tame build poll prioOf (coopStart build prioOf cfg seed main)) (n : Nat) :
    ∃ m s, (coopStart build prioOf cfg seed main).runSlice (coop build poll) prioOf m = (none, s) ∧
      allPolls s.log = (WS.run build poll arr n 0 (WS.start cfg workers seed main p)).2.slices.map
        (fun x => (x.1, x.2.1, x.2.2.map build)) ∧
      s.chooser = (WS.run build poll arr n 0 (WS.start cfg workers seed main p)).2.sched.chooser ∧
      s.results = (WS.run build poll arr n 0 (WS.start cfg workers seed main p)).2.sched.results ∧
      s.clock = (WS.run build poll arr n 0 (WS.start cfg workers seed main p)).2.sched.clock ∧
      (WS.run build poll arr n 0 (WS.start cfg workers seed main p)).2.failed = false ∧
      (WS.run build poll arr n 0 (WS.start cfg workers seed main p)).2.sched.crashed = false ∧
      (∀ o, (WS.run build poll arr n 0 (WS.start cfg workers seed main p)).1 = some o →
        (coopStart build prioOf cfg seed main).runSlice (coop build poll) prioOf (m + 1) = (some o, s)) ∧
      ((WS.run build poll arr n 0 (WS.start cfg workers seed main p)).1 = none → n ≤ m) := by
  have hio' : ∀ b ctx, (poll b ctx).1.isIo = false := by
    intro b ctx
    have := hio b ctx
    cases h : (poll b ctx).1 <;> simp_all [Step.isIo]
  have ok : Ok build poll prioOf (coopStart build prioOf cfg seed main) :=
    ⟨.task _ _ (.init cfg _), ⟨_, _, _, rfl⟩, hpol, htame⟩
  obtain ⟨m, s, h1, h2, h3, h4, h5⟩ := run_ok hio' arr harr n 0 _ _ ok (start_agree cfg workers seed main p _)
  refine ⟨m, s, h1, h3.slices, h3.sim.chooser.symm, h3.sim.results.symm, h3.sim.clock.symm, h3.failed,
    h3.sim.crashed.trans h2.sound, ?_, h5⟩
  intro o ho
  rw [runSlice_add, h1]
  exact runSlice_stop h2.sound (h4 o ho) 0

/-- C20 (part): a program whose single-threaded run ends, ends with the same outcome, the same polls and the same
random choices on the multi-threaded executor, in no more turns, whatever the threads do. -/
theorem C20_same_outcome_partial {B D : Type} (build : D → B) (poll : B → Ctx → Step D × B) (prioOf : B → Nat)
    (cfg : Config) (hpol : cfg.policy = .fifo ∨ cfg.policy = .roundRobin) (workers seed : Nat) (main : D) (p : Nat)
    (arr : Nat → List (Msg D) → List (Msg D)) (harr : ∀ i l, (arr i l).Perm l)
    (hio : ∀ b ctx, (poll b ctx).1 ≠ .ioPending)
    (htame : Tame build poll prioOf (coopStart build prioOf cfg seed main))
    {N : Nat} {o : State.Outcome} {s : State B}
    (hend : (coopStart build prioOf cfg seed main).runSlice (coop build poll) prioOf N = (some o, s)) :
    (WS.run build poll arr N 0 (WS.start cfg workers seed main p)).1 = some o ∧
    allPolls s.log = (WS.run build poll arr N 0 (WS.start cfg workers seed main p)).2.slices.map
      (fun x => (x.1, x.2.1, x.2.2.map build)) ∧
    s.chooser.trace = (WS.run build poll arr N 0 (WS.start cfg workers seed main p)).2.sched.chooser.trace := by
  obtain ⟨m, s', h1, h2, h3, _, _, _, _, h4, h5⟩ :=
    C20_follows_cooperative_partial build poll prioOf cfg hpol workers seed main p arr harr hio htame N
  have hext : ∀ x, (coopStart build prioOf cfg seed main).runSlice (coop build poll) prioOf (N + x) = (some o, s) := by
    intro x; rw [runSlice_add, hend]
  cases hr : (WS.run build poll arr N 0 (WS.start cfg workers seed main p)).1 with
  | none =>
    have := h5 hr
    obtain ⟨x, rfl⟩ := Nat.exists_eq_add_of_le this
    rw [hext x] at h1
    cases h1
  | some o' =>
    have e1 := h4 o' hr
    have e2 : (coopStart build prioOf cfg seed main).runSlice (coop build poll) prioOf (m + 1 + N) = (some o', s') := by
      rw [runSlice_add, e1]
    rw [Nat.add_comm, hext] at e2
    simp only [Prod.mk.injEq, Option.some.injEq] at e2
    obtain ⟨rfl, rfl⟩ := e2
    exact ⟨rfl, h2, by rw [h3]⟩

/-! ## Programs for the examples -/

/-- A task that plays back a script and then exits with what it was last resumed with. -/
def playBack (scripts : List (List (Step Pc))) (b : Pc) (ctx : Ctx) : Step Pc × Pc :=
  (((scripts[b.1]?.getD [])[b.2]?).getD (.exit ctx.resumed), (b.1, b.2 + 1))

/-- Main makes a channel (1) and two tasks (2, 3) that each send their number on it; it exits with the first
number to arrive. -/
def race : List (List (Step Pc)) :=
  [[.newChan none, .spawn (1, 0), .spawn (2, 0), .recv 1], [.send 1 (.other 1)], [.send 1 (.other 2)]]

/-- Main (0) makes a channel (1), task 2 and task 3, then polls the channel. Task 2 aborts task 3 just before
task 3 would send on it. -/
def lateAbort : List (List (Step Pc)) :=
  [[.newChan none, .spawn (1, 0), .spawn (2, 0), .tryRecv 1], [.yield, .abort 3], [.send 1 (.other 7)]]

/-- Main outranks its children. -/
def rank (b : Pc) : Nat := if b.1 = 0 then 5 else b.1

theorem playBack_io {scripts : List (List (Step Pc))} (h : scripts.all (fun l => l.all fun st => decide (st ≠ .ioPending)) = true) :
    ∀ b ctx, (playBack scripts b ctx).1 ≠ .ioPending := by
  intro b ctx hb
  simp only [playBack] at hb
  cases h1 : (scripts[b.1]?.getD [])[b.2]? with
  | none => rw [h1] at hb; cases hb
  | some st =>
    rw [h1] at hb
    simp only [Option.getD_some] at hb
    subst hb
    cases h2 : scripts[b.1]? with
    | none => rw [h2] at h1; simp at h1
    | some l =>
      rw [h2] at h1
      have hm := List.mem_of_getElem? h1
      have hl := List.mem_of_getElem? h2
      have := List.all_eq_true.mp (List.all_eq_true.mp h l hl) _ hm
      simp at this

/-- Is the next step a tame one? -/
def tameAt (scripts : List (List (Step Pc))) (s : State Pc) : Bool :=
  match nextStep (coop id (playBack scripts)) s with
  | none => true
  | some (t, st) => stepOkB s t st && (match st with
    | .abort u => decide (u ∉ s.ready)
    | _ => true)

theorem tame_finite {scripts : List (List (Step Pc))} {s : State Pc} {prioOf : Pc → Nat} {N : Nat} {o : State.Outcome}
    (hend : (s.runSlice (coop id (playBack scripts)) prioOf N).1 = some o)
    (hall : ((List.range N).all fun n => tameAt scripts (s.runSlice (coop id (playBack scripts)) prioOf n).2) = true) :
    Tame id (playBack scripts) prioOf s := by
  intro n t st hn
  by_cases h : n < N
  · have := List.all_eq_true.mp hall n (List.mem_range.mpr h)
    simp only [tameAt, hn, Bool.and_eq_true] at this
    refine ⟨stepOkB_ok this.1, ?_⟩
    intro u hu
    subst hu
    simpa using this.2
  · exfalso
    obtain ⟨x, rfl⟩ := Nat.exists_eq_add_of_le (Nat.not_lt.mp h)
    rw [runSlice_add, hend] at hn
    obtain ⟨_, ho⟩ := runSlice_outcome N hend
    have hr := ((outcome_iff _).mp ho).1
    simp [nextStep, hr] at hn

/-- The racing program meets the hypotheses: it is tame and does no I/O, and its single-threaded FIFO run ends
with the first child's number. -/
example : Tame id (playBack race) rank (coopStart id rank {} 9 (0, 0)) ∧
    (∀ b ctx, (playBack race b ctx).1 ≠ .ioPending) ∧
    ((coopStart id rank {} 9 (0, 0)).runSlice (coop id (playBack race)) rank 12).1 = some (.done (.other 1)) := by
  have e : ((coopStart id rank {} 9 (0, 0)).runSlice (coop id (playBack race)) rank 12).1 = some (.done (.other 1)) := by
    decide +kernel
  exact ⟨tame_finite e (by decide +kernel), playBack_io (by decide), e⟩

/-- Serving the messages backwards is a permissible order. -/
example : ∀ (_ : Nat) (l : List (Msg Pc)), l.reverse.Perm l := fun _ l => List.reverse_perm l

/-- C20 fails under LIFO: the single-threaded run hears task 3 first, the multi-threaded one task 2. -/
theorem C20_lifo_fails :
    ((coopStart id rank { policy := .lifo } 9 (0, 0)).runSlice (coop id (playBack race)) rank 20).1 = some (.done (.other 2)) ∧
    (WS.run id (playBack race) (fun _ l => l) 20 0 (WS.start { policy := .lifo } 2 9 (0, 0) 5)).1 = some (.done (.other 1)) := by
  decide +kernel

/-- C20 fails under the priority policy in the same way, although main has the same priority in both. -/
theorem C20_priority_fails :
    ((coopStart id rank { policy := .priority } 9 (0, 0)).runSlice (coop id (playBack race)) rank 20).1 = some (.done (.other 2)) ∧
    (WS.run id (playBack race) (fun _ l => l) 20 0 (WS.start { policy := .priority } 2 9 (0, 0) 5)).1 = some (.done (.other 1)) := by
  decide +kernel

/-- C20 fails under the random policy: the same seed makes other choices. -/
theorem C20_random_fails :
    ((coopStart id rank { policy := .random } 1 (0, 0)).runSlice (coop id (playBack race)) rank 20).1 = some (.done (.other 2)) ∧
    (WS.run id (playBack race) (fun _ l => l) 20 0 (WS.start { policy := .random } 2 1 (0, 0) 5)).1 = some (.done (.other 1)) := by
  decide +kernel

/-- C20 fails under FIFO when a task aborts one that was about to run: single-threaded, task 3 never sends and
main finds nothing; multi-threaded, it has already been polled and its value arrives after its abort. -/
theorem C20_abort_fails :
    ((coopStart id rank {} 9 (0, 0)).runSlice (coop id (playBack lateAbort)) rank 20).1 = some (.done .nothing) ∧
    (WS.run id (playBack lateAbort) (fun _ l => l) 20 0 (WS.start {} 2 9 (0, 0) 5)).1 = some (.done (.other 7)) := by
  decide +kernel

end Verif.Props
