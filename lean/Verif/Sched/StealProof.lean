import Verif.Sched.StealSim
/-!
# A round of the work-stealing executor is a stretch of the cooperative run
-/

namespace Verif.Sched
variable {B D : Type}

/-! ## Polls in the log -/

theorem lastPoll_mem_aux {t : Nat} : ∀ (log : List (Ev B)) (acc : Option (Step B × Nat)) (st : Step B) (clk : Nat),
    log.foldl (fun acc e => match e with
      | .poll t' _ st clk => if t' = t then some (st, clk) else acc
      | _ => acc) acc = some (st, clk) → acc = some (st, clk) ∨ ∃ ctx, (t, ctx, st) ∈ allPolls log := by
  intro log
  induction log with
  | nil => intro acc st clk h; exact Or.inl h
  | cons e es ih =>
    intro acc st clk h
    rw [List.foldl_cons] at h
    rcases ih _ st clk h with h | ⟨ctx, h⟩
    · cases e with
      | poll t' c st' clk' =>
        by_cases ht : t' = t
        · subst ht
          simp only [if_true, Option.some.injEq, Prod.mk.injEq] at h
          exact Or.inr ⟨c, by simp [allPolls, h.1]⟩
        · simp only [ht, if_false] at h; exact Or.inl h
      | _ => exact Or.inl h
    · refine Or.inr ⟨ctx, ?_⟩
      simp only [allPolls, List.mem_filterMap, List.mem_cons] at h ⊢
      obtain ⟨e', h1, h2⟩ := h
      exact ⟨e', Or.inr h1, h2⟩

theorem lastPoll_mem {t : Nat} {log : List (Ev B)} {st : Step B} {clk : Nat} (h : lastPoll t log = some (st, clk)) :
    ∃ ctx, (t, ctx, st) ∈ allPolls log := by
  rcases lastPoll_mem_aux log none st clk h with h | h
  · cases h
  · exact h

theorem lastPoll_none_aux {t : Nat} : ∀ (log : List (Ev B)) (acc : Option (Step B × Nat)),
    log.foldl (fun acc e => match e with
      | .poll t' _ st clk => if t' = t then some (st, clk) else acc
      | _ => acc) acc = none → acc = none ∧ ∀ x ∈ allPolls log, x.1 ≠ t := by
  intro log
  induction log with
  | nil => intro acc h; exact ⟨h, by simp [allPolls]⟩
  | cons e es ih =>
    intro acc h
    rw [List.foldl_cons] at h
    obtain ⟨h1, h2⟩ := ih _ h
    cases e with
    | poll t' c st' clk' =>
      by_cases ht : t' = t
      · simp [ht] at h1
      · simp only [ht, if_false] at h1
        refine ⟨h1, ?_⟩
        intro x hx
        simp only [allPolls, List.filterMap_cons, List.mem_cons] at hx
        rcases hx with hx | hx
        · rw [hx]; exact ht
        · exact h2 x hx
    | _ => exact ⟨h1, fun x hx => h2 x (by simpa [allPolls] using hx)⟩

theorem lastPoll_none {t : Nat} {log : List (Ev B)} (h : lastPoll t log = none) : ∀ x ∈ allPolls log, x.1 ≠ t :=
  (lastPoll_none_aux log none h).2

theorem allPolls_append (l1 l2 : List (Ev B)) : allPolls (l1 ++ l2) = allPolls l1 ++ allPolls l2 := by
  simp [allPolls]

theorem allPolls_quiet {evs : List (Ev B)} (h : ∀ e ∈ evs, isPoll e = false) : allPolls evs = [] := by
  simp only [allPolls, List.filterMap_eq_nil_iff]
  intro e he
  have := h e he
  cases e <;> simp_all [isPoll]

/-! ## Contexts survive the trip to the worker -/

theorem resume_ctx (d : Type) {s : State B} {t : Nat} {ctx : Ctx} (h : Resumable s t ctx) :
    ctxOf (resumeOf ctx : Resume d) = ctx := by
  have plain : ∀ p : Payload, ctxOf (resumeOf { resumed := p } : Resume d) = { resumed := p } := by
    intro p; cases p <;> rfl
  unfold Resumable at h
  cases hl : lastPoll t s.log with
  | none => rw [hl] at h; rw [h.2]; rfl
  | some q =>
    obtain ⟨st, clk⟩ := q
    rw [hl] at h
    cases st with
    | yield => rw [h.2]; rfl
    | abort u => rw [h.2]; rfl
    | close c => rw [h.2.1]; rfl
    | ioPending => rw [h.2]; rfl
    | exit v => exact h.elim
    | send c p => rw [h.2]; rfl
    | trySend c p => rcases h with h | h <;> (rw [h.2]; rfl)
    | recv c =>
      rcases h with ⟨v, _, h⟩ | ⟨_, h, _⟩
      · rw [h]; exact plain v
      · rw [h]; rfl
    | tryRecv c =>
      rcases h with ⟨v, _, h⟩ | ⟨_, h⟩
      · rw [h]; exact plain v
      · rw [h]; rfl
    | select arms =>
      obtain ⟨i, ⟨c, _, ⟨v, _, h⟩ | ⟨_, h, _⟩⟩ | ⟨d', _, _, h, _⟩⟩ := h <;> (rw [h]; rfl)
    | sleep d' => rw [h.2.1]; rfl
    | newChan cap => obtain ⟨id, ch, _, h, _⟩ := h; rw [h]; rfl
    | spawn b => obtain ⟨id, sl, _, h, _⟩ := h; rw [h]; rfl
    | await u =>
      rcases h with ⟨r, _, _, h⟩ | ⟨_, h⟩
      · rw [h]; exact plain _
      · rw [h]; rfl

/-! ## Draining -/

variable {Q : Nat → B → Prop} {s : State B}

theorem pickReady_fifo {w : State D} {t : Nat} {rest : List Nat}
    (hp : w.cfg.policy = .fifo ∨ w.cfg.policy = .roundRobin) (hr : w.ready = t :: rest) :
    w.pickReady = (some t, { w with ready := rest }) := by
  have : w.pickIndex = (0, w) := by
    rcases hp with hp | hp <;> simp [State.pickIndex, hp]
  simp [State.pickReady, this, State.removeReady, hr]

theorem drain_sim (S : Nat → Slot B) : ∀ (rest : List Nat) (H : List (Nat × Slot B)) (w : State D), Sim Q H s w →
    w.ready = rest → (∀ t ∈ rest, s.tasks t = some (S t)) → (ids H ++ rest).Nodup →
    (s.cfg.policy = .fifo ∨ s.cfg.policy = .roundRobin) →
    (w.drain rest.length).1 = rest.map (fun t => ⟨t, (S t).ctx⟩) ∧
    Sim Q (H ++ rest.map fun t => (t, S t)) s (w.drain rest.length).2 := by
  intro rest
  induction rest with
  | nil => intro H w h _ _ _ _; simpa [State.drain] using h
  | cons t rest ih =>
    intro H w h hr hS hn hp
    have hst := hS t (by simp)
    have htH : t ∉ ids H := by
      intro hm
      exact (List.nodup_append.mp hn).2.2 t hm t (by simp) rfl
    obtain ⟨b, hb⟩ : ∃ b, w.tasks t = some b := by
      rcases h.both t with ⟨h1, _⟩ | ⟨a, b, _, h2⟩
      · rw [hst] at h1; cases h1
      · exact ⟨b, h2⟩
    have hss := h.slot t (S t) b htH hst hb
    have hnd : w.nextDispatch = (some ⟨t, b.ctx⟩, { w with ready := rest, tasks := upd w.tasks t (some b.cleared) }) := by
      simp [State.nextDispatch, hr, pickReady_fifo (by rw [h.cfg]; exact hp) hr, hb]
    have h1 : Sim Q (H ++ [(t, S t)]) s ({ w with ready := rest, tasks := upd w.tasks t (some b.cleared) } : State D) := by
      refine ⟨h.cfg, h.chooser, by simp [ids, h.ready, hr], h.chans, h.timers, h.clock, h.nextId, h.mainResult, h.results,
        h.awaiters, h.crashed, ?_, ?_, ?_⟩
      · intro u
        by_cases hu : u = t
        · subst hu; simp [upd, hst]
        · simp only [upd, hu, if_false]; exact h.absent u
      · intro u a b' hu ha hb'
        simp only [ids, List.map_append, List.map_cons, List.map_nil, List.mem_append, List.mem_singleton, not_or] at hu
        simp only [upd, hu.2, if_false] at hb'
        exact h.slot u a b' hu.1 ha hb'
      · intro x hx0
        rcases List.mem_append.mp hx0 with hx | hx
        · have hne : x.1 ≠ t := fun e => htH (e ▸ List.mem_map.mpr ⟨x, hx, rfl⟩)
          simp only [upd, hne, if_false]
          exact h.held x hx
        · simp only [List.mem_singleton] at hx
          subst hx
          refine ⟨hst, ?_⟩
          intro b' hb'
          simp only [upd, if_true, Option.some.injEq] at hb'
          subst hb'
          exact ⟨hss.state, hss.arms, hss.main, rfl⟩
    have := ih (H ++ [(t, S t)]) _ h1 rfl (fun u hu => hS u (by simp [hu])) (by simpa [ids, List.append_assoc] using hn) hp
    rw [List.length_cons]
    simp only [State.drain, hnd, List.map_cons]
    exact ⟨by rw [this.1, hss.ctx], by simpa [List.append_assoc] using this.2⟩

/-! ## Assigning -/

/-- Where the body of a task is: not built yet, or on its owner. -/
def Loc (build : D → B) (ws : WS B D) (t : Nat) (b : B) : Prop :=
  (∃ d, ws.fresh t = some d ∧ build d = b) ∨
  (ws.fresh t = none ∧ ∃ w, ws.owner t = some w ∧ ws.bodies w t = some b)

theorem assignAll_ok (build : D → B) (body : Nat → B) (C : Nat → Ctx) : ∀ (ts : List Nat) (ws : WS B D), ts.Nodup →
    (∀ t ∈ ts, Loc build ws t (body t)) → (∀ t ∈ ts, ∀ d, ws.fresh t = some d → C t = {}) →
    (∀ t ∈ ts, ctxOf (resumeOf (C t) : Resume D) = C t) →
    (WS.assignAll (ts.map fun t => ⟨t, C t⟩) ws).1.map (·.tid) = ts ∧
    (∀ m ∈ (WS.assignAll (ts.map fun t => ⟨t, C t⟩) ws).1, ctxOf m.resume = C m.tid ∧
      ws.bodyFor build m = some (body m.tid) ∧
      (WS.assignAll (ts.map fun t => ⟨t, C t⟩) ws).2.owner m.tid = some m.worker) ∧
    (∀ t ∈ ts, (WS.assignAll (ts.map fun t => ⟨t, C t⟩) ws).2.fresh t = none) ∧
    (∀ t, t ∉ ts → (WS.assignAll (ts.map fun t => ⟨t, C t⟩) ws).2.fresh t = ws.fresh t ∧
      (WS.assignAll (ts.map fun t => ⟨t, C t⟩) ws).2.owner t = ws.owner t) ∧
    (WS.assignAll (ts.map fun t => ⟨t, C t⟩) ws).2.bodies = ws.bodies ∧
    (WS.assignAll (ts.map fun t => ⟨t, C t⟩) ws).2.sched = ws.sched ∧
    (WS.assignAll (ts.map fun t => ⟨t, C t⟩) ws).2.slices = ws.slices ∧
    (WS.assignAll (ts.map fun t => ⟨t, C t⟩) ws).2.failed = ws.failed := by
  intro ts
  induction ts with
  | nil => intro ws _ _ _ _; simp [WS.assignAll]
  | cons t ts ih =>
    intro ws hn hl hf hc
    obtain ⟨htn, hn'⟩ := List.nodup_cons.mp hn
    -- one assignment
    obtain ⟨m, ws1, ha, hmt, hmc, hmb, hmo, hmf, hot, hb, hs, hsl, hfa⟩ : ∃ m ws1, ws.assign ⟨t, C t⟩ = (some m, ws1) ∧ m.tid = t ∧
        ctxOf m.resume = C t ∧ ws.bodyFor build m = some (body t) ∧ ws1.owner t = some m.worker ∧ ws1.fresh t = none ∧
        (∀ u, u ≠ t → ws1.fresh u = ws.fresh u ∧ ws1.owner u = ws.owner u) ∧ ws1.bodies = ws.bodies ∧
        ws1.sched = ws.sched ∧ ws1.slices = ws.slices ∧ ws1.failed = ws.failed := by
      rcases hl t (by simp) with ⟨d, h1, h2⟩ | ⟨h1, w, h2, h3⟩
      · have e : ws.assign ⟨t, C t⟩ = (some ⟨ws.nextW, t, .spawn d⟩, { ws with
            fresh := upd ws.fresh t none
            owner := upd ws.owner t (some ws.nextW)
            nextW := (ws.nextW + 1) % ws.workers }) := by simp only [WS.assign, h1]
        refine ⟨_, _, e, rfl, ?_, ?_, ?_, ?_, ?_, rfl, rfl, rfl, rfl⟩
        · rw [hf t (by simp) d h1]; rfl
        · simp [WS.bodyFor, h2]
        · simp [upd]
        · simp [upd]
        · intro u hu; simp [upd, hu]
      · have e : ws.assign ⟨t, C t⟩ = (some ⟨w, t, resumeOf (C t)⟩, ws) := by simp only [WS.assign, h1, h2]
        refine ⟨_, _, e, rfl, hc t (by simp), ?_, h2, h1, fun u _ => ⟨rfl, rfl⟩, rfl, rfl, rfl, rfl⟩
        have : ∀ d, (resumeOf (C t) : Resume D) ≠ .spawn d := by
          intro d
          unfold resumeOf
          repeat' split
          all_goals simp
        unfold WS.bodyFor
        split
        · next d e => exact absurd e (this d)
        · exact h3
    have hne : ∀ u ∈ ts, u ≠ t := fun u hu e => htn (e ▸ hu)
    obtain ⟨i1, i2, i3, i4, i5, i6, i7, i8⟩ := ih ws1 hn'
      (fun u hu => by
        rcases hl u (by simp [hu]) with ⟨d, h1, h2⟩ | ⟨h1, w, h2, h3⟩
        · exact Or.inl ⟨d, by rw [(hot u (hne u hu)).1]; exact h1, h2⟩
        · exact Or.inr ⟨by rw [(hot u (hne u hu)).1]; exact h1, w, by rw [(hot u (hne u hu)).2]; exact h2, by rw [hb]; exact h3⟩)
      (fun u hu d hd => hf u (by simp [hu]) d (by rw [← (hot u (hne u hu)).1]; exact hd))
      (fun u hu => hc u (by simp [hu]))
    have hbf : ∀ m', ws1.bodyFor build m' = ws.bodyFor build m' := by
      intro m'; unfold WS.bodyFor; rw [hb]
    simp only [List.map_cons, WS.assignAll, ha, Option.toList_some, List.singleton_append]
    refine ⟨by rw [hmt, i1], ?_, ?_, ?_, i5.trans hb, i6.trans hs, i7.trans hsl, i8.trans hfa⟩
    · intro m' hm'
      rcases List.mem_cons.mp hm' with rfl | hm'
      · rw [hmt]
        exact ⟨hmc, hmb, by rw [(i4 t htn).2]; exact hmo⟩
      · obtain ⟨a, b, c⟩ := i2 m' hm'
        exact ⟨a, by rw [← hbf]; exact b, c⟩
    · intro u hu
      rcases List.mem_cons.mp hu with rfl | hu
      · rw [(i4 u htn).1]; exact hmf
      · exact i3 u hu
    · intro u hu
      simp only [List.mem_cons, not_or] at hu
      rw [(i4 u hu.2).1, (i4 u hu.2).2]
      exact hot u hu.1

/-! ## Working -/

theorem workAll_ok (build : D → B) (poll : B → Ctx → Step D × B) (hio : ∀ b ctx, (poll b ctx).1.isIo = false)
    (body : Nat → B) : ∀ (ms : List (Msg D)) (ws : WS B D), (ms.map (·.tid)).Nodup →
    (∀ m ∈ ms, ws.bodyFor build m = some (body m.tid)) →
    (WS.workAll build poll ms ws).1 =
      ms.map (fun m => ⟨m.tid, ctxOf m.resume, (poll (body m.tid) (ctxOf m.resume)).1⟩) ∧
    (∀ m ∈ ms, (poll (body m.tid) (ctxOf m.resume)).1.isExit = false →
      (WS.workAll build poll ms ws).2.bodies m.worker m.tid = some (poll (body m.tid) (ctxOf m.resume)).2) ∧
    (∀ w t, t ∉ ms.map (·.tid) → (WS.workAll build poll ms ws).2.bodies w t = ws.bodies w t) ∧
    (WS.workAll build poll ms ws).2.sched = ws.sched ∧ (WS.workAll build poll ms ws).2.fresh = ws.fresh ∧
    (WS.workAll build poll ms ws).2.owner = ws.owner ∧ (WS.workAll build poll ms ws).2.slices = ws.slices ∧
    (WS.workAll build poll ms ws).2.failed = ws.failed := by
  intro ms
  induction ms with
  | nil => intro ws _ _; simp [WS.workAll]
  | cons m ms ih =>
    intro ws hn hb
    rw [List.map_cons, List.nodup_cons] at hn
    obtain ⟨hmn, hn'⟩ := hn
    have hbm := hb m (by simp)
    have hne : ∀ m' ∈ ms, m'.tid ≠ m.tid := fun m' hm' e => hmn (List.mem_map.mpr ⟨m', hm', e⟩)
    generalize hws1 : (ws.work build poll m).2 = ws1
    have hw : ws.work build poll m = (some ⟨m.tid, ctxOf m.resume, (poll (body m.tid) (ctxOf m.resume)).1⟩, ws1) := by
      rw [← hws1]
      simp [WS.work, hbm, hio]
    have e1 : ws1 = { ws with bodies := upd ws.bodies m.worker (upd (ws.bodies m.worker) m.tid
            (if (poll (body m.tid) (ctxOf m.resume)).1.isExit then none else some (poll (body m.tid) (ctxOf m.resume)).2)) } := by
      rw [← hws1]
      simp [WS.work, hbm, hio]
    have hold : ∀ w t, t ≠ m.tid → ws1.bodies w t = ws.bodies w t := by
      intro w t ht
      rw [e1]
      by_cases hw' : w = m.worker
      · simp [upd, hw', ht]
      · simp [upd, hw']
    obtain ⟨i1, i2, i3, i4, i5, i6, i7, i8⟩ := ih ws1 hn' (by
      intro m' hm'
      have := hb m' (by simp [hm'])
      unfold WS.bodyFor at this ⊢
      split
      · next d e => rw [e] at this; exact this
      · next hno =>
        rw [hold _ _ (hne m' hm')]
        revert this
        split
        · next d e => exact absurd e (hno d)
        · exact id)
    simp only [WS.workAll, hw, Option.toList_some, List.singleton_append, List.map_cons]
    refine ⟨by rw [i1], ?_, ?_, ?_, ?_, ?_, ?_, ?_⟩
    · intro m' hm' hex
      rcases List.mem_cons.mp hm' with rfl | hm'
      · rw [i3 _ _ hmn, e1]
        simp [upd, hex]
      · exact i2 m' hm' hex
    · intro w t ht
      simp only [List.mem_cons, not_or] at ht
      rw [i3 w t ht.2, hold w t ht.1]
    · rw [i4, e1]
    · rw [i5, e1]
    · rw [i6, e1]
    · rw [i7, e1]
    · rw [i8, e1]

theorem find_key {A : Type} (key : A → Nat) : ∀ (l : List A), (l.map key).Nodup → ∀ x ∈ l, ∀ k, key x = k →
    l.find? (fun y => decide (key y = k)) = some x := by
  intro l
  induction l with
  | nil => intro _ x hx; cases hx
  | cons a l ih =>
    intro hn x hx k hk
    rw [List.map_cons, List.nodup_cons] at hn
    rcases List.mem_cons.mp hx with rfl | hx
    · simp [hk]
    · have : key a ≠ k := by
        intro e
        exact hn.1 (List.mem_map.mpr ⟨x, hx, hk.trans e.symm⟩)
      simp [this, ih hn.2 x hx k hk]

end Verif.Sched
