import Verif.Sched.StealProof
/-!
# Rounds
-/

namespace Verif.Sched
variable {B D : Type} {build : D → B} {poll : B → Ctx → Step D × B} {prioOf : B → Nat}

/-- What is known of a cooperative state on the way. -/
structure Ok (build : D → B) (poll : B → Ctx → Step D × B) (prioOf : B → Nat) (s : State B) : Prop where
  reach : Reach (coop build poll) prioOf s
  seeded : Seeded s
  fifo : s.cfg.policy = .fifo ∨ s.cfg.policy = .roundRobin
  tame : Tame build poll prioOf s

theorem Ok.inv {s : State B} (h : Ok build poll prioOf s) : Inv s := h.reach.inv.1
theorem Ok.sound {s : State B} (h : Ok build poll prioOf s) : s.crashed = false := h.reach.inv.2

theorem Ok.steps {s : State B} (h : Ok build poll prioOf s) (t : Nat) (st : Step B)
    (hn : nextStep (coop build poll) s = some (t, st)) : StepOk s t st := (h.tame 0 t st hn).1

theorem Ok.calm {s : State B} (h : Ok build poll prioOf s) : (s.pollOnce (coop build poll) prioOf).2.crashed = false :=
  seeded_step h.seeded h.inv h.sound h.steps

theorem Ok.next {s : State B} (h : Ok build poll prioOf s) : Ok build poll prioOf (s.pollOnce (coop build poll) prioOf).2 := by
  refine ⟨.step h.reach h.steps h.calm, seeded_pollOnce h.seeded, ?_, ?_⟩
  · have := leads_cfg h.reach (.step .refl h.steps h.calm)
    rw [this]; exact h.fifo
  · intro n t st hn
    cases hp : (s.pollOnce (coop build poll) prioOf).1 with
    | some o =>
      have e : (s.pollOnce (coop build poll) prioOf).2 = s := by rw [outcome_state hp]
      rw [e] at hn ⊢
      exact h.tame n t st hn
    | none =>
      have e : s.runSlice (coop build poll) prioOf (n + 1) = (s.pollOnce (coop build poll) prioOf).2.runSlice (coop build poll) prioOf n := by
        simp only [State.runSlice, h.sound, hp, Bool.false_eq_true, if_false]
      have := h.tame (n + 1) t st
      rw [e] at this
      exact this hn

theorem Sim.weaken {Q Q' : Nat → B → Prop} {H : List (Nat × Slot B)} {s : State B} {w : State D} (h : Sim Q H s w)
    (hq : ∀ u a, s.tasks u = some a → Q u a.body → Q' u a.body) : Sim Q' H s w := by
  refine ⟨h.cfg, h.chooser, h.ready, h.chans, h.timers, h.clock, h.nextId, h.mainResult, h.results, h.awaiters, h.crashed,
    h.absent, ?_, h.held⟩
  intro t a b ht ha hb
  have k := h.slot t a b ht ha hb
  exact ⟨k.state, k.arms, k.main, k.ctx, hq t a ha k.body⟩

/-- The two executors agree, with the tasks in `H` polled by workers but not yet applied. -/
structure Agree (build : D → B) (H : List (Nat × Slot B)) (ws : WS B D) (s : State B) : Prop where
  sim : Sim (fun t b => (s.results t).isSome ∨ Loc build ws t b) H s ws.sched
  slices : allPolls s.log = ws.slices.map fun x => (x.1, x.2.1, x.2.2.map build)
  fresh : ∀ t d, ws.fresh t = some d → (s.tasks t).isSome ∧ ∀ x ∈ ws.slices, x.1 ≠ t
  noIo : ∀ x ∈ ws.slices, x.2.2.isIo = false
  failed : ws.failed = false

theorem Agree.fresh_poll {H : List (Nat × Slot B)} {ws : WS B D} {s : State B} (h : Agree build H ws s) {t : Nat} {d : D}
    (hf : ws.fresh t = some d) : lastPoll t s.log = none := by
  cases hl : lastPoll t s.log with
  | none => rfl
  | some q =>
    obtain ⟨st, clk⟩ := q
    obtain ⟨ctx, hm⟩ := lastPoll_mem hl
    rw [h.slices] at hm
    obtain ⟨x, hx, e⟩ := List.mem_map.mp hm
    simp only [Prod.mk.injEq] at e
    exact absurd e.1 ((h.fresh t d hf).2 x hx)

theorem held_clear {s : State B} (h : Inv s) {l : List Nat} (hl : ∀ u ∈ l, u ∈ s.ready) : Clear l s := by
  have key : ∀ u ∈ l, regOf s u = { ready := 1 } := by
    intro u hu
    have hr := (mem_ready h u).mp (hl u hu)
    rcases registrations h u with ⟨h1, h2⟩ | ⟨_, h1, h2⟩ | ⟨h0, h1, h2⟩ | ⟨h0, st, clk, _, _, h1, h3, h2⟩
    · simp [State.stateOf, h1] at hr
    · rw [h1] at hr; simp at hr
    · exact h2
    · have hc := List.count_pos_iff.mpr (hl u hu)
      have e : s.ready.count u = (regOf s u).ready := rfl
      rw [e] at hc
      rw [h2, waitReg_ready] at hc
      omega
  refine ⟨?_, ?_, ?_⟩
  · intro u hu c hm
    have := congrArg (fun r => r.recv c) (key u hu)
    have hp := List.count_pos_iff.mpr hm
    simp only [regOf] at this
    omega
  · intro u hu c p hm
    have := congrArg (fun r => r.send c) (key u hu)
    simp only [regOf, List.map_eq_nil_iff, List.filter_eq_nil_iff] at this
    exact this (u, p) hm (by simp)
  · intro u hu k hm
    have := congrArg (fun r => r.awaits k) (key u hu)
    have hp := List.count_pos_iff.mpr hm
    simp only [regOf] at this
    omega

theorem pollOnce_fifo {p : B → Ctx → Step B × B} {s : State B} {t : Nat} {rest : List Nat} {sl : Slot B}
    (hp : s.cfg.policy = .fifo ∨ s.cfg.policy = .roundRobin) (hr : s.ready = t :: rest) (hs : s.tasks t = some sl) :
    s.pollOnce p prioOf = (none, (polled p s s.chooser 0 t sl).process prioOf t (p sl.body sl.ctx).1) := by
  simp [State.pollOnce, hr, pickReady_fifo hp hr, State.dispatch, State.pollTask, hs, polled]

theorem nextStep_fifo {p : B → Ctx → Step B × B} {s : State B} {t : Nat} {rest : List Nat} {sl : Slot B}
    (hp : s.cfg.policy = .fifo ∨ s.cfg.policy = .roundRobin) (hr : s.ready = t :: rest) (hs : s.tasks t = some sl) :
    nextStep p s = some (t, (p sl.body sl.ctx).1) := by
  simp [nextStep, hr, pickReady_fifo hp hr, hs]

theorem freshAfter_ne (fresh : Nat → Option D) {child u : Nat} (st : Step D) (h : u ≠ child) :
    freshAfter fresh child st u = fresh u := by
  cases st <;> simp [freshAfter, upd, h]

theorem exit_result (s : State B) (t : Nat) (v : Payload) : ((s.process prioOf t (.exit v)).results t).isSome = true := by
  simp only [State.process, State.complete, results_wakeAll, upd, if_true, Option.isSome_some]

theorem spawn_child {s : State B} {t : Nat} {sl : Slot B} (hs : s.tasks t = some sl) (ht : t ≠ s.nextId) (b : B) :
    ((s.process prioOf t (.spawn b)).tasks s.nextId).isSome = true := by
  have h1 : (s.addTask b (prioOf b) false).tasks t = some sl := by simp [State.addTask, upd, ht, hs]
  simp only [State.process]
  rw [modTask_some h1, markReady_some (sl := { sl with resumeTask := some s.nextId }) (by simp [upd])]
  simp [upd, Ne.symm ht, State.addTask]

/-- Applying the first report of the batch is one cooperative step. -/
theorem apply_one (hio : ∀ b ctx, (poll b ctx).1.isIo = false) {H : List (Nat × Slot B)} {ws : WS B D} {s : State B} {t : Nat} {sl : Slot B}
    (ok : Ok build poll prioOf s) (h : Agree build ((t, sl) :: H) ws s) (hfr : ws.fresh t = none)
    (hloc : (poll sl.body sl.ctx).1.isExit = false → ∃ w, ws.owner t = some w ∧ ws.bodies w t = some (poll sl.body sl.ctx).2) :
    (s.pollOnce (coop build poll) prioOf).1 = none ∧
    Agree build H (ws.applyStep ⟨t, sl.ctx, (poll sl.body sl.ctx).1⟩) (s.pollOnce (coop build poll) prioOf).2 := by
  have hsl : s.tasks t = some sl := (h.sim.held (t, sl) (by simp)).1
  have hr : s.ready = t :: (ids H ++ ws.sched.ready) := by rw [h.sim.ready]; rfl
  have hpo := pollOnce_fifo (p := coop build poll) (prioOf := prioOf) ok.fifo hr hsl
  have hns := nextStep_fifo (p := coop build poll) ok.fifo hr hsl
  rw [hpo]
  refine ⟨rfl, ?_⟩
  have hnd : (t :: (ids H ++ ws.sched.ready)).Nodup := by rw [← hr]; exact ready_nodup ok.inv
  have hlt : ∀ u a, s.tasks u = some a → u ≠ s.nextId := by
    intro u a hu e
    have := ok.inv.core.taskLt u (by rw [hu]; rfl)
    omega
  have htH : t ∉ ids H := fun hm => (List.nodup_cons.mp hnd).1 (List.mem_append_left _ hm)
  obtain ⟨hres, hrn, hst, hpre⟩ := poll_pre (ch := s.chooser) (coop build poll) ok.inv (i := 0) (by rw [hr]; rfl) hsl
  generalize hs1 : polled (coop build poll) s s.chooser 0 t sl = s1
  have hpre1 : Pre s1 t ((coop build poll) sl.body sl.ctx).1 := by rw [← hs1]; exact hpre
  generalize hstep : (poll sl.body sl.ctx).1 = st at *
  have hcst : ((coop build poll) sl.body sl.ctx).1 = st.map build := by rw [← hstep]; rfl
  rw [hcst] at hpre1 ⊢
  obtain ⟨htame, htab⟩ := ok.tame 0 t _ hns
  rw [hcst] at htame htab
  have hs1res : s1.results = s.results := by rw [← hs1]; rfl
  have hs1next : s1.nextId = s.nextId := by rw [← hs1]; rfl
  have hs1log : s1.log = s.log ++ [.poll t sl.ctx (st.map build) s.clock] := by rw [← hs1, ← hcst]; rfl
  have hs1none : ∀ u, s1.tasks u = none ↔ s.tasks u = none := by
    intro u
    rw [← hs1]
    by_cases hu : u = t
    · subst hu; simp [polled, upd, hsl]
    · simp [polled, upd, hu]
  have hs1old : ∀ u a, s1.tasks u = some a → u ≠ s.nextId := by
    intro u a ha e
    have : s.tasks u ≠ none := by
      intro hn
      rw [(hs1none u).mpr hn] at ha; cases ha
    obtain ⟨a', ha'⟩ := Option.ne_none_iff_exists'.mp this
    exact hlt u a' ha' e
  -- what the bodies in the coordinator's world are, before and after the step
  let Q1 : Nat → B → Prop := fun u b =>
    (u ≠ s.nextId ∧ ((s.results u).isSome ∨ Loc build ws u b ∨ (u = t ∧ st.isExit = true))) ∨
    (u = s.nextId ∧ ∃ d, st = .spawn d ∧ b = build d)
  have sim1 : Sim Q1 H s1 ws.sched := by
    have h0 := h.sim
    refine ⟨by rw [← hs1]; exact h0.cfg, by rw [← hs1]; exact h0.chooser, by rw [← hs1]; simp [polled, hr], by rw [← hs1]; exact h0.chans,
      by rw [← hs1]; exact h0.timers, by rw [← hs1]; exact h0.clock, by rw [← hs1]; exact h0.nextId, by rw [← hs1]; exact h0.mainResult,
      by rw [← hs1]; exact h0.results, by rw [← hs1]; exact h0.awaiters, by rw [← hs1]; exact h0.crashed, ?_, ?_, ?_⟩
    · intro u; rw [hs1none]; exact h0.absent u
    · intro u a b hu ha hb
      have huo := hs1old u a ha
      by_cases hut : u = t
      · subst hut
        rw [← hs1] at ha
        simp only [polled, upd, if_true, Option.some.injEq] at ha
        have hh := (h0.held (u, sl) (by simp)).2 b hb
        subst ha
        refine ⟨hh.state, hh.arms, hh.main, hh.ctx, Or.inl ⟨huo, ?_⟩⟩
        cases hex : st.isExit with
        | true => exact Or.inr (Or.inr ⟨rfl, rfl⟩)
        | false => exact Or.inr (Or.inl (Or.inr ⟨hfr, hloc hex⟩))
      · have ha' : s.tasks u = some a := by rw [← hs1] at ha; simpa [polled, upd, hut] using ha
        have hu' : u ∉ ids ((t, sl) :: H) := by
          simp only [ids, List.map_cons, List.mem_cons, not_or]; exact ⟨hut, hu⟩
        have k := h0.slot u a b hu' ha' hb
        refine ⟨k.state, k.arms, k.main, k.ctx, Or.inl ⟨huo, ?_⟩⟩
        rcases k.body with hk | hk
        · exact Or.inl hk
        · exact Or.inr (Or.inl hk)
    · intro x hx
      have hne : x.1 ≠ t := fun e => htH (e ▸ List.mem_map.mpr ⟨x, hx, rfl⟩)
      have k := h0.held x (by simp [hx])
      refine ⟨?_, k.2⟩
      rw [← hs1]
      simp only [polled, upd, hne, if_false]
      exact k.1
  have hHready : ∀ u ∈ ids H, u ∈ s.ready := by
    intro u hu; rw [hr]; exact List.mem_cons_of_mem _ (List.mem_append_left _ hu)
  have hclear : Clear (ids H) s1 := (held_clear ok.inv hHready).congr (by rw [← hs1]; rfl) (by rw [← hs1]; rfl)
  have hHn : s1.nextId ∉ ids H := by
    intro hm
    obtain ⟨x, hx, e⟩ := List.mem_map.mp hm
    exact hs1old x.1 x.2 (sim1.held x hx).1 (e.trans hs1next)
  have hchild : ChildOk Q1 s1.nextId (st.map build) := by
    cases st with
    | spawn d => exact Or.inr ⟨hs1next, d, rfl, rfl⟩
    | _ => trivial
  have hab : ∀ u, st = .abort u → u ∉ ids H := by
    intro u hu hm
    refine htab u (by rw [hu]; rfl) ?_
    exact hHready u hm
  have sim2 := sim1.process hclear htH prioOf (fun _ => 0) build st hHn hchild hab
  obtain ⟨fwd, _, evs, hlog, hquiet⟩ := process_fwd (prioOf := prioOf) hpre1
  have hpolls : allPolls (s1.process prioOf t (st.map build)).log = allPolls s.log ++ [(t, sl.ctx, st.map build)] := by
    rw [hlog, hs1log, allPolls_append, allPolls_append, allPolls_quiet hquiet, List.append_nil]
    rfl
  have hslmem : ∀ u, s.tasks u = none → ∀ x ∈ ws.slices, x.1 ≠ u := by
    intro u hu x hx e
    have hl : lastPoll u s.log = none := by
      cases ok.inv.status u with
      | absent _ _ hl => exact hl
      | ready sl ht => rw [ht] at hu; cases hu
      | done sl ht => rw [ht] at hu; cases hu
      | blocked sl st clk ht => rw [ht] at hu; cases hu
    refine lastPoll_none hl (x.1, x.2.1, x.2.2.map build) ?_ e
    rw [h.slices]
    exact List.mem_map.mpr ⟨x, hx, rfl⟩
  have hwn : ws.sched.nextId = s.nextId := h.sim.nextId
  have hnew : s.tasks s.nextId = none := by
    cases e : s.tasks s.nextId with
    | none => rfl
    | some a => exact absurd rfl (hlt _ a e)
  refine ⟨?_, ?_, ?_, ?_, h.failed⟩
  · refine sim2.weaken ?_
    intro u a ha hq
    rcases hq with ⟨hu, hq | hq | ⟨hut, hex⟩⟩ | ⟨hu, d, hd, hb⟩
    · left
      rw [← hs1res] at hq
      obtain ⟨r, hr'⟩ := Option.isSome_iff_exists.mp hq
      rw [fwd.results u r hr']; rfl
    · right
      have hf : (ws.applyStep ⟨t, sl.ctx, st⟩).fresh u = ws.fresh u := by
        simp only [WS.applyStep, hwn]
        exact freshAfter_ne _ _ hu
      rcases hq with ⟨d, h1, h2⟩ | ⟨h1, w, h2, h3⟩
      · exact Or.inl ⟨d, by rw [hf]; exact h1, h2⟩
      · exact Or.inr ⟨by rw [hf]; exact h1, w, h2, h3⟩
    · left
      subst hut
      cases st with
      | exit v => exact exit_result (prioOf := prioOf) s1 u v
      | _ => simp [Step.isExit] at hex
    · right; left
      refine ⟨d, ?_, hb.symm⟩
      simp [WS.applyStep, hwn, hd, freshAfter, upd, hu]
  · rw [hpolls, h.slices]
    simp [WS.applyStep]
  · intro u d hu
    have hmem : ∀ x ∈ (ws.applyStep ⟨t, sl.ctx, st⟩).slices, x ∈ ws.slices ∨ x = (t, sl.ctx, st) := by
      intro x hx
      simp only [WS.applyStep, List.mem_append, List.mem_singleton] at hx
      exact hx
    by_cases hun : u = s.nextId
    · subst hun
      have hut : t ≠ s.nextId := hlt t sl hsl
      refine ⟨?_, ?_⟩
      · cases st with
        | spawn d' =>
          obtain ⟨sl1, g1, _⟩ := hpre1.run.slot
          have := spawn_child (prioOf := prioOf) g1 (by rw [hs1next]; exact hut) (build d')
          rw [hs1next] at this
          exact this
        | _ =>
          exfalso
          have := (h.fresh s.nextId d hu).1
          rw [hnew] at this; cases this
      · intro x hx
        rcases hmem x hx with hx | hx
        · exact hslmem _ hnew x hx
        · rw [hx]; exact hut
    · have hf : ws.fresh u = some d := by
        have : (ws.applyStep ⟨t, sl.ctx, st⟩).fresh u = ws.fresh u := by
          simp only [WS.applyStep, hwn]
          exact freshAfter_ne _ _ hun
        rw [← this]; exact hu
      have hut : t ≠ u := by rintro rfl; rw [hfr] at hf; cases hf
      refine ⟨?_, ?_⟩
      · have := (h.fresh u d hf).1
        obtain ⟨a, ha⟩ := Option.isSome_iff_exists.mp this
        have h1 : s1.tasks u ≠ none := by
          intro hn; rw [(hs1none u).mp hn] at ha; cases ha
        obtain ⟨a1, ha1⟩ := Option.ne_none_iff_exists'.mp h1
        obtain ⟨a2, ha2, _⟩ := fwd.tasks u a1 ha1
        rw [ha2]; rfl
      · intro x hx
        rcases hmem x hx with hx | hx
        · exact (h.fresh u d hf).2 x hx
        · rw [hx]; exact hut
  · intro x hx
    simp only [WS.applyStep, List.mem_append, List.mem_singleton] at hx
    rcases hx with hx | hx
    · exact h.noIo x hx
    · rw [hx]
      have := hio sl.body sl.ctx
      rw [hstep] at this
      exact this

theorem runSlice_cons {p : B → Ctx → Step B × B} {s : State B} (hc : s.crashed = false) (h : (s.pollOnce p prioOf).1 = none) (n : Nat) :
    s.runSlice p prioOf (n + 1) = (s.pollOnce p prioOf).2.runSlice p prioOf n := by
  simp only [State.runSlice, hc, h, Bool.false_eq_true, if_false]

/-- Applying all reports in pick order is as many cooperative steps. -/
theorem apply_all (hio : ∀ b ctx, (poll b ctx).1.isIo = false) (reports : List (Report D)) :
    ∀ (H : List (Nat × Slot B)) (ws : WS B D) (s : State B), Ok build poll prioOf s → Agree build H ws s →
    (∀ x ∈ H, reports.find? (fun r => decide (r.tid = x.1)) = some ⟨x.1, x.2.ctx, (poll x.2.body x.2.ctx).1⟩) →
    (∀ x ∈ H, ws.fresh x.1 = none) →
    (∀ x ∈ H, (poll x.2.body x.2.ctx).1.isExit = false →
      ∃ w, ws.owner x.1 = some w ∧ ws.bodies w x.1 = some (poll x.2.body x.2.ctx).2) →
    ∃ s', s.runSlice (coop build poll) prioOf H.length = (none, s') ∧ Ok build poll prioOf s' ∧
      Agree build [] (WS.applyAll reports (ids H) ws) s' := by
  intro H
  induction H with
  | nil => intro ws s ok h _ _ _; exact ⟨s, rfl, ok, h⟩
  | cons x H ih =>
    intro ws s ok h hf hfr hb
    obtain ⟨t, sl⟩ := x
    obtain ⟨h1, h2⟩ := apply_one hio ok h (hfr (t, sl) (by simp)) (hb (t, sl) (by simp))
    have hne : ∀ x ∈ H, x.1 ≠ ws.sched.nextId := by
      intro x hx e
      have := (h.sim.held x (by simp [hx])).1
      have := ok.inv.core.taskLt x.1 (by rw [this]; rfl)
      rw [e, h.sim.nextId] at this
      omega
    obtain ⟨s', g1, g2, g3⟩ := ih (ws.applyStep ⟨t, sl.ctx, (poll sl.body sl.ctx).1⟩) _ ok.next h2
      (fun x hx => hf x (by simp [hx]))
      (fun x hx => by
        show freshAfter ws.fresh ws.sched.nextId _ x.1 = none
        rw [freshAfter_ne _ _ (hne x hx)]
        exact hfr x (by simp [hx]))
      (fun x hx => hb x (by simp [hx]))
    refine ⟨s', ?_, g2, ?_⟩
    · rw [List.length_cons, runSlice_cons ok.sound h1]; exact g1
    · have := hf (t, sl) (by simp)
      simp only [ids, List.map_cons, WS.applyAll, this]
      exact g3

/-- Polling a batch of the ready tasks is a stretch of the cooperative run. -/
theorem batch_ok (hio : ∀ b ctx, (poll b ctx).1.isIo = false) (arr : List (Msg D) → List (Msg D)) (harr : ∀ l, (arr l).Perm l)
    {ws : WS B D} {s : State B} (ok : Ok build poll prioOf s) (h : Agree build [] ws s) {t0 : Nat} {rest : List Nat}
    (hr : ws.sched.ready = t0 :: rest) :
    ∃ s', s.runSlice (coop build poll) prioOf ws.sched.ready.length = (none, s') ∧ Ok build poll prioOf s' ∧
      Agree build [] (WS.batch build poll arr (ws.sched.drain ws.sched.ready.length).1
        { ws with sched := (ws.sched.drain ws.sched.ready.length).2 }) s' ∧
      (ws.sched.drain ws.sched.ready.length).1 ≠ [] := by
  have hsr : s.ready = ws.sched.ready := h.sim.ready
  have hex : ∀ t ∈ ws.sched.ready, ∃ sl, s.tasks t = some sl := by
    intro t ht
    have := (ready_live ok.inv ((mem_ready ok.inv t).mp (hsr ▸ ht))).1
    exact Option.isSome_iff_exists.mp this
  obtain ⟨sl0, hsl0⟩ := hex t0 (by rw [hr]; simp)
  let S : Nat → Slot B := fun t => (s.tasks t).getD sl0
  have hS : ∀ t ∈ ws.sched.ready, s.tasks t = some (S t) := by
    intro t ht
    obtain ⟨sl, hsl⟩ := hex t ht
    simp [S, hsl]
  have hnd : ws.sched.ready.Nodup := hsr ▸ ready_nodup ok.inv
  obtain ⟨d1, d2⟩ := drain_sim S ws.sched.ready [] ws.sched h.sim rfl hS (by simpa [ids] using hnd) ok.fifo
  generalize ws.sched.drain ws.sched.ready.length = dr at *
  generalize hrd : ws.sched.ready = rd at *
  rw [List.nil_append] at d2
  have hne : dr.1 ≠ [] := by rw [d1, hr]; simp
  -- the state of a ready task
  have hst : ∀ t ∈ rd, s.results t = none ∧ Resumable s t (S t).ctx := by
    intro t ht
    have hrt : s.stateOf t = some .ready := (mem_ready ok.inv t).mp (hsr ▸ ht)
    cases ok.inv.status t with
    | absent e => simp [State.stateOf, e] at hrt
    | ready sl e _ _ _ hres hx =>
      rw [hS t ht] at e; cases e
      exact ⟨hres, hx⟩
    | done sl e e' => simp [State.stateOf, e, e'] at hrt
    | blocked sl st clk e _ e' =>
      simp only [State.stateOf, e, Option.some.injEq] at hrt
      rw [hrt] at e'
      exact absurd e' (waitState_ne_ready st)
  have hloc : ∀ t ∈ rd, Loc build ws t (S t).body := by
    intro t ht
    obtain ⟨b, hb⟩ : ∃ b, ws.sched.tasks t = some b := by
      rcases h.sim.both t with ⟨h1, _⟩ | ⟨a, b, _, h2⟩
      · rw [hS t ht] at h1; cases h1
      · exact ⟨b, h2⟩
    rcases (h.sim.slot t _ b (by simp [ids]) (hS t ht) hb).body with hq | hq
    · rw [(hst t ht).1] at hq; cases hq
    · exact hq
  let ws1 : WS B D := { ws with sched := dr.2 }
  have hloc1 : ∀ t ∈ rd, Loc build ws1 t (S t).body := hloc
  have hctx1 : ∀ t ∈ rd, ∀ d, ws1.fresh t = some d → (S t).ctx = {} := by
    intro t ht d hd
    have hl := h.fresh_poll hd
    have := (hst t ht).2
    simp only [Resumable, hl] at this
    exact this.2
  obtain ⟨a1, a2, a3, a4, a5, a6, a7, a8⟩ := assignAll_ok build (fun t => (S t).body) (fun t => (S t).ctx) rd ws1 hnd hloc1 hctx1
    (fun t ht => resume_ctx D (hst t ht).2)
  have hda : (WS.assignAll dr.1 ws1) = WS.assignAll (rd.map fun t => ⟨t, (S t).ctx⟩) ws1 := by rw [d1]
  rw [← hda] at a1 a2 a3 a4 a5 a6 a7 a8
  simp only [WS.batch]
  change ∃ s', _ ∧ _ ∧ Agree build [] (WS.applyAll (WS.workAll build poll (arr (WS.assignAll dr.1 ws1).1) (WS.assignAll dr.1 ws1).2).1
    (dr.1.map (·.tid)) (WS.workAll build poll (arr (WS.assignAll dr.1 ws1).1) (WS.assignAll dr.1 ws1).2).2) s' ∧ _
  generalize WS.assignAll dr.1 ws1 = as at *
  have hperm := harr as.1
  have hmem : ∀ m, m ∈ arr as.1 ↔ m ∈ as.1 := fun m => hperm.mem_iff
  have hnd2 : ((arr as.1).map (·.tid)).Nodup := (hperm.map (fun m : Msg D => m.tid)).nodup_iff.mpr (by rw [a1]; exact hnd)
  obtain ⟨w1, w2, w3, w4, w5, w6, w7, w8⟩ := workAll_ok build poll hio (fun t => (S t).body) (arr as.1) as.2 hnd2 (by
    intro m hm
    rw [← (a2 m ((hmem m).mp hm)).2.1]
    unfold WS.bodyFor
    rw [a5])
  generalize WS.workAll build poll (arr as.1) as.2 = wk at *
  have htid : dr.1.map (·.tid) = ids (rd.map fun t => (t, S t)) := by
    rw [d1]; simp [ids, Function.comp_def]
  have hmsg : ∀ t ∈ rd, ∃ m ∈ as.1, m.tid = t := by
    intro t ht
    rw [← a1] at ht
    obtain ⟨m, hm, e⟩ := List.mem_map.mp ht
    exact ⟨m, hm, e⟩
  have hwkfresh : ∀ t, wk.2.fresh t = if t ∈ rd then none else ws.fresh t := by
    intro t
    rw [w5]
    by_cases ht : t ∈ rd
    · rw [if_pos ht]; exact a3 t ht
    · rw [if_neg ht]; exact (a4 t ht).1
  have hag : Agree build (rd.map fun t => (t, S t)) wk.2 s := by
    refine ⟨?_, ?_, ?_, ?_, ?_⟩
    · rw [w4, a6]
      refine ⟨d2.cfg, d2.chooser, d2.ready, d2.chans, d2.timers, d2.clock, d2.nextId, d2.mainResult, d2.results, d2.awaiters,
        d2.crashed, d2.absent, ?_, d2.held⟩
      intro t a b ht ha hb
      have htr : t ∉ rd := by
        intro hm; exact ht (by simpa [ids, Function.comp_def] using hm)
      have k := d2.slot t a b ht ha hb
      refine ⟨k.state, k.arms, k.main, k.ctx, ?_⟩
      rcases k.body with hq | hq
      · exact Or.inl hq
      · right
        have hf : wk.2.fresh t = ws.fresh t := by rw [hwkfresh, if_neg htr]
        have ho : wk.2.owner t = ws.owner t := by rw [w6]; exact (a4 t htr).2
        have hbo : ∀ w, wk.2.bodies w t = ws.bodies w t := by
          intro w
          rw [w3 w t, a5]
          intro hm
          rw [(hperm.map (fun m : Msg D => m.tid)).mem_iff, a1] at hm
          exact htr hm
        rcases hq with ⟨d, h1, h2⟩ | ⟨h1, w, h2, h3⟩
        · exact Or.inl ⟨d, by rw [hf]; exact h1, h2⟩
        · exact Or.inr ⟨by rw [hf]; exact h1, w, by rw [ho]; exact h2, by rw [hbo]; exact h3⟩
    · rw [h.slices, w7, a7]
    · intro t d hd
      rw [hwkfresh] at hd
      split at hd
      · cases hd
      · have := h.fresh t d hd
        refine ⟨this.1, ?_⟩
        rw [w7, a7]; exact this.2
    · rw [w7, a7]; exact h.noIo
    · rw [w8, a8]; exact h.failed
  obtain ⟨s', g1, g2, g3⟩ := apply_all hio wk.1 (rd.map fun t => (t, S t)) wk.2 s ok hag
    (by
      intro x hx
      obtain ⟨t, ht, rfl⟩ := List.mem_map.mp hx
      obtain ⟨m, hm, hmt⟩ := hmsg t ht
      rw [w1]
      have := find_key (fun r : Report D => r.tid)
        ((arr as.1).map fun m => (⟨m.tid, ctxOf m.resume, (poll (S m.tid).body (ctxOf m.resume)).1⟩ : Report D))
        (by simpa [Function.comp_def] using hnd2) _ (List.mem_map.mpr ⟨m, (hmem m).mpr hm, rfl⟩) t hmt
      rw [this, (a2 m hm).1, hmt])
    (by
      intro x hx
      obtain ⟨t, ht, rfl⟩ := List.mem_map.mp hx
      rw [hwkfresh, if_pos ht])
    (by
      intro x hx hex'
      obtain ⟨t, ht, rfl⟩ := List.mem_map.mp hx
      obtain ⟨m, hm, hmt⟩ := hmsg t ht
      have hc := (a2 m hm).1
      refine ⟨m.worker, ?_, ?_⟩
      · rw [w6, ← hmt]; exact (a2 m hm).2.2
      · have := w2 m ((hmem m).mpr hm)
        rw [hc, hmt] at this
        exact this hex')
  refine ⟨s', ?_, g2, ?_, hne⟩
  · rw [List.length_map] at g1
    exact g1
  · rw [htid]; exact g3

/-- One turn of the coordinator's loop. -/
theorem round_ok (hio : ∀ b ctx, (poll b ctx).1.isIo = false) (arr : List (Msg D) → List (Msg D)) (harr : ∀ l, (arr l).Perm l)
    {ws : WS B D} {s : State B} (ok : Ok build poll prioOf s) (h : Agree build [] ws s) :
    (∃ o, ws.round build poll arr = (some o, ws) ∧ (s.pollOnce (coop build poll) prioOf).1 = some o) ∨
    ((ws.round build poll arr).1 = none ∧ ∃ k s', 0 < k ∧ s.runSlice (coop build poll) prioOf k = (none, s') ∧
      Ok build poll prioOf s' ∧ Agree build [] (ws.round build poll arr).2 s') := by
  have hsr : s.ready = ws.sched.ready := h.sim.ready
  cases hr : ws.sched.ready with
  | cons t0 rest =>
    right
    obtain ⟨s', g1, g2, g3, g4⟩ := batch_ok hio arr harr ok h hr
    obtain ⟨d, ds, hd⟩ := List.exists_cons_of_ne_nil g4
    have e : ws.round build poll arr = (none, WS.batch build poll arr (ws.sched.drain ws.sched.ready.length).1
        { ws with sched := (ws.sched.drain ws.sched.ready.length).2 }) := by
      simp only [WS.round, hd]
    rw [e]
    exact ⟨rfl, _, s', by rw [hr]; simp, g1, g2, g3⟩
  | nil =>
    have hsr0 : s.ready = [] := hsr.trans hr
    have hdr : (ws.sched.drain ws.sched.ready.length).1 = [] := by rw [hr]; rfl
    have hall : ws.sched.allDone = s.allDone := by
      unfold State.allDone
      rw [h.sim.nextId]
      congr 1
      funext t
      rw [h.sim.stateOf]
    have hti : ws.sched.timers = s.timers := h.sim.timers
    have hmr : ws.sched.mainResult = s.mainResult := h.sim.mainResult
    by_cases hd : s.allDone = true
    · left
      have := (done_iff (poll := coop build poll) (prioOf := prioOf) ok.inv (s.mainResult.getD .nothing)).mpr
        ⟨(allDone_iff ok.inv).mp hd, rfl⟩
      refine ⟨_, ?_, this⟩
      simp only [WS.round, hdr, hall, hd, if_true, hmr]
    · by_cases ht : s.timers = []
      · left
        refine ⟨.deadlock, by simp only [WS.round, hdr, hall, hd, hti, ht, if_false, ne_eq, not_true_eq_false, Bool.false_eq_true], ?_⟩
        refine (outcome_iff _).mpr ⟨hsr0, ht, ?_⟩
        have hno : s.anyIo = false := by
          cases hio' : s.anyIo with
          | false => rfl
          | true =>
            obtain ⟨t, clk, _, _, hl⟩ := (anyIo_iff ok.inv).mp hio'
            obtain ⟨ctx, hm⟩ := lastPoll_mem hl
            rw [h.slices] at hm
            obtain ⟨x, hx, e⟩ := List.mem_map.mp hm
            have hni := h.noIo x hx
            simp only [Prod.mk.injEq] at e
            have e3 := e.2.2
            revert hni e3
            cases x.2.2 <;> simp [Step.map, Step.isIo]
        simp [State.outcome, hd, hno]
      · right
        have e : ws.round build poll arr = (none, { ws with sched := ws.sched.advanceTimers }) := by
          simp only [WS.round, hdr, hall, hd, hti, ht, if_false, ne_eq, not_false_eq_true, if_true, Bool.false_eq_true]
        have hpo : s.pollOnce (coop build poll) prioOf = (none, s.advanceTimers) := by
          simp [State.pollOnce, hsr0, ht]
        rw [e]
        refine ⟨rfl, 1, s.advanceTimers, Nat.one_pos, ?_, ?_, ?_⟩
        · rw [runSlice_cons ok.sound (by rw [hpo]), hpo]; rfl
        · have := ok.next; rw [hpo] at this; exact this
        · obtain ⟨m, hm⟩ := earliest_some ht
          have hext : Ext ({ s with clock := m, timers := s.timers.filter (·.fireAt ≠ m) } : State B) s.advanceTimers := by
            simp only [State.advanceTimers, hm]
            exact (ext_fireOrder _ _).trans (ext_fireAll _ _)
          obtain ⟨evs, hl, hq⟩ := hext.log
          refine ⟨?_, ?_, ?_, h.noIo, h.failed⟩
          · refine (h.sim.advance).weaken ?_
            intro u a _ hq
            rcases hq with hq | hq
            · left
              obtain ⟨r, hr'⟩ := Option.isSome_iff_exists.mp hq
              rw [hext.mono.results u r hr']; rfl
            · exact Or.inr hq
          · rw [hl, allPolls_append, allPolls_quiet hq, List.append_nil]
            exact h.slices
          · intro t d hd
            have := h.fresh t d hd
            refine ⟨?_, this.2⟩
            obtain ⟨a, ha⟩ := Option.isSome_iff_exists.mp this.1
            obtain ⟨a', ha', _⟩ := hext.slots t a ha
            rw [ha']; rfl

/-- Any number of turns. -/
theorem run_ok (hio : ∀ b ctx, (poll b ctx).1.isIo = false) (arr : Nat → List (Msg D) → List (Msg D))
    (harr : ∀ i l, (arr i l).Perm l) : ∀ (n k : Nat) (ws : WS B D) (s : State B), Ok build poll prioOf s → Agree build [] ws s →
    ∃ m s', s.runSlice (coop build poll) prioOf m = (none, s') ∧ Ok build poll prioOf s' ∧
      Agree build [] (WS.run build poll arr n k ws).2 s' ∧
      (∀ o, (WS.run build poll arr n k ws).1 = some o → (s'.pollOnce (coop build poll) prioOf).1 = some o) ∧
      ((WS.run build poll arr n k ws).1 = none → n ≤ m) := by
  intro n
  induction n with
  | zero => intro k ws s ok h; exact ⟨0, s, rfl, ok, h, fun o ho => (by cases ho), fun _ => Nat.le_refl 0⟩
  | succ n ih =>
    intro k ws s ok h
    rcases round_ok hio (arr k) (harr k) ok h with ⟨o, e, ho⟩ | ⟨e, j, s1, hj, g1, g2, g3⟩
    · have er : WS.run build poll arr (n + 1) k ws = (some o, ws) := by simp only [WS.run, e]
      rw [er]
      exact ⟨0, s, rfl, ok, h, fun o' h' => (by rw [← h']; exact ho), fun h' => (by cases h')⟩
    · have er : WS.run build poll arr (n + 1) k ws = WS.run build poll arr n (k + 1) (ws.round build poll (arr k)).2 := by
        simp only [WS.run, e]
      rw [er]
      obtain ⟨m, s', f1, f2, f3, f4, f5⟩ := ih (k + 1) _ s1 g2 g3
      refine ⟨j + m, s', ?_, f2, f3, f4, fun hn => ?_⟩
      · rw [runSlice_add, g1]; exact f1
      · have := f5 hn; omega

/-- The two executors agree at the start. -/
theorem start_agree (cfg : Config) (workers seed : Nat) (main : D) (p p' : Nat) :
    Agree build [] (WS.start cfg workers seed main p : WS B D)
      ((State.init cfg (.record seed seed [])).addTask (build main) p' true) := by
  refine ⟨?_, rfl, ?_, (by intro x hx; cases hx), rfl⟩
  · refine ⟨rfl, rfl, rfl, rfl, rfl, rfl, rfl, rfl, rfl, rfl, rfl, ?_, ?_, (by intro x hx; cases hx)⟩
    · intro t
      simp only [WS.start, State.addTask, State.init, upd]
      split <;> simp
    · intro t a b _ ha hb
      simp only [WS.start, State.addTask, State.init, upd] at ha hb
      split at ha
      · next ht =>
        rw [if_pos ht] at hb
        simp only [Option.some.injEq] at ha hb
        subst ha hb
        refine ⟨rfl, rfl, rfl, rfl, Or.inr (Or.inl ⟨main, ?_, rfl⟩)⟩
        simp [WS.start, upd, ht]
      · cases ha
  · intro t d hd
    simp only [WS.start, upd] at hd
    split at hd
    · next ht => exact ⟨by simp [State.addTask, State.init, upd, ht], (by intro x hx; cases hx)⟩
    · cases hd

end Verif.Sched
