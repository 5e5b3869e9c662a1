import Verif.Kernel.TermLemmas
/-!
# The substitution theorem
-/
namespace Verif.Core
open Verif.Level (Universe)

/-- What a substitution function guarantees for bodies up to height `n`. -/
def Good (sub : Term → String → Term → List String → Term) (n : Nat) : Prop :=
  ∀ b v r fvs, height b ≤ n → Blocks b → (∀ y, occursFree y r = true → y ∈ fvs) →
    (∀ ρ d, sem ρ d (sub b v r fvs) = sem (upd ρ v (fun d' => sem ρ d' r)) d b) ∧
    (Blocks r → Blocks (sub b v r fvs)) ∧ (height r = 0 → height (sub b v r fvs) ≤ n)

theorem freshen_spec (x : String) (b : Term) (fvs : List String) (v : String) :
    freshen x b fvs v ≠ v ∧ freshen x b fvs v ∉ allNames b ∧ freshen x b fvs v ∉ fvs := by
  have := search_fresh x (v :: (allNames b ++ fvs))
  simp only [List.mem_cons, List.mem_append, not_or] at this
  exact ⟨this.1, this.2.1, this.2.2⟩

theorem sem_bind_unused {r : Term} {f : String} (h : ¬ occursFree f r = true) (ρ : Env) (d d' : Nat) :
    sem (bind ρ f d) d' r = sem ρ d' r := by
  refine sem_congr r d' (fun y hy => ?_)
  have : y ≠ f := fun e => h (e ▸ hy)
  simp [bind, this]

theorem underBinder_good {sub : Term → String → Term → List String → Term} {n : Nat} (hg : Good sub n)
    {b : Term} (v : String) {r : Term} {fvs : List String} (x : String) (hb : height b ≤ n) (hk : Blocks b)
    (hf : ∀ y, occursFree y r = true → y ∈ fvs) :
    (∀ ρ d, sem (bind ρ (underBinder sub v r fvs x b).1 d) (d + 1) (underBinder sub v r fvs x b).2 =
      sem (bind (upd ρ v (fun d' => sem ρ d' r)) x d) (d + 1) b) ∧
    (Blocks r → Blocks (underBinder sub v r fvs x b).2) ∧
    (height r = 0 → height (underBinder sub v r fvs x b).2 ≤ n) := by
  unfold underBinder
  by_cases e : x = v
  · simp only [e, if_true]
    refine ⟨fun ρ d => ?_, fun _ => hk, fun _ => hb⟩
    refine sem_congr b _ (fun y _ => ?_)
    simp only [bind, upd]
    split <;> rfl
  · simp only [e, if_false]
    by_cases hx : fvs.contains x = true
    · simp only [hx, if_true]
      obtain ⟨f1, f2, f3⟩ := freshen_spec x b fvs v
      generalize freshen x b fvs v = f at f1 f2 f3 ⊢
      obtain ⟨g1, g2, g3⟩ := hg b x (.var f) [f] hb hk (by
        intro y hy; simp only [occursFree, beq_iff_eq] at hy; simp [hy])
      have g2' := g2 (by simp [Blocks])
      have g3' := g3 (by simp [height])
      obtain ⟨k1, k2, k3⟩ := hg (sub b x (.var f) [f]) v r fvs g3' g2' hf
      refine ⟨fun ρ d => ?_, k2, k3⟩
      rw [k1, g1]
      refine sem_congr b _ (fun y hy => ?_)
      have hyf : y ≠ f := fun h => f2 (h ▸ occursFree_allNames b hy)
      by_cases hyx : y = x
      · funext d'
        simp [upd, bind, hyx, sem, f1]
      · by_cases hyv : y = v
        · subst hyv
          funext d'
          simp only [upd, bind, if_true, hyx, if_false]
          exact sem_bind_unused (fun h => f3 (hf f h)) ρ d d'
        · simp [upd, bind, hyx, hyv, hyf]
    · simp only [hx]
      obtain ⟨k1, k2, k3⟩ := hg b v r fvs hb hk hf
      refine ⟨fun ρ d => ?_, k2, k3⟩
      simp only [Bool.false_eq_true, if_false]
      rw [k1]
      refine sem_congr b _ (fun y hy => ?_)
      by_cases hyx : y = x
      · simp [upd, bind, hyx, e]
      · by_cases hyv : y = v
        · subst hyv
          funext d'
          simp only [upd, bind, if_true, hyx, if_false]
          exact sem_bind_unused (fun h => hx (by simpa using hf x h)) ρ d d'
        · simp [upd, bind, hyx, hyv]

/-! ### Blocks -/

theorem names_modify (f : String) (ds : List (String × Term)) (i : Nat) :
    names (ds.modify i (fun d => (f, d.2))) = (names ds).set i f := by
  induction ds generalizing i with
  | nil => simp [names]
  | cons c cs ih =>
    cases i with
    | zero => simp [names]
    | succ i => simpa [names] using ih i

theorem snd_modify (f : String) (ds : List (String × Term)) (i : Nat) :
    (ds.modify i (fun d => (f, d.2))).map Prod.snd = ds.map Prod.snd := by
  induction ds generalizing i with
  | nil => simp
  | cons c cs ih =>
    cases i with
    | zero => simp
    | succ i => simpa using ih i

theorem names_mapBodies (g : Term → Term) (ds : List (String × Term)) : names (mapBodies g ds) = names ds := by
  simp [names, mapBodies]

theorem snd_mapBodies (g : Term → Term) (ds : List (String × Term)) :
    (mapBodies g ds).map Prod.snd = (ds.map Prod.snd).map g := by
  simp [mapBodies]

theorem semD_snd (ρ : Env) (d : Nat) (ds : List (String × Term)) :
    semD ρ d ds = (ds.map Prod.snd).map (sem ρ d) := by
  simp [semD_eq]

/-- One step of the renaming loop keeps the meaning of the block. -/
theorem bindAll_set {ns : List String} (hn : ns.Nodup) {i : Nat} {p f : String} (hi : ns[i]? = some p)
    (hf : f ∉ ns) (ρ : Env) (d : Nat) {y : String} (hy : y ≠ f) :
    upd (bindAll ρ d (ns.set i f)) p (fun d' => bindAll ρ d (ns.set i f) f d') y = bindAll ρ d ns y := by
  have hlen : i < ns.length := by
    rcases Nat.lt_or_ge i ns.length with h | h
    · exact h
    · rw [List.getElem?_eq_none h] at hi; cases hi
  have hn' : (ns.set i f).Nodup := List.Nodup.set hn hf
  have hfi : (ns.set i f)[i]? = some f := by simp [List.getElem?_set, hlen]
  by_cases e : y = p
  · subst e
    simp only [upd, if_true]
    rw [bindAll_mem hn hi, bindAll_mem hn' hfi]
  · simp only [upd, e, if_false]
    by_cases hm : y ∈ ns
    · obtain ⟨j, hj⟩ := List.mem_iff_getElem?.1 hm
      have hji : i ≠ j := by
        rintro rfl
        rw [hi] at hj
        exact e (Option.some.inj hj).symm
      rw [bindAll_mem hn hj, bindAll_mem hn' (j := j) (by simp [List.getElem?_set, hji, hj])]
    · rw [bindAll_not_mem hm, bindAll_not_mem]
      intro h
      rcases List.mem_or_eq_of_mem_set h with h | h
      · exact hm h
      · exact hy h

theorem renameBlock_good {sub : Term → String → Term → List String → Term} {n : Nat} (hg : Good sub n)
    (v : String) (fvs : List String) (k i : Nat) (ds : List (String × Term)) (hlen : i + k = ds.length)
    (hn : (names ds).Nodup) (hv : v ∉ names ds) (hb : ∀ b ∈ ds.map Prod.snd, height b ≤ n ∧ Blocks b)
    (hdone : ∀ j < i, ∀ y, (names ds)[j]? = some y → y ∉ fvs) :
    ∃ ds', renameBlock (fun b x y => sub b x (.var y) [y]) v fvs k i ds = ds' ∧
      ds'.length = ds.length ∧ (names ds').Nodup ∧ v ∉ names ds' ∧
      (∀ b ∈ ds'.map Prod.snd, height b ≤ n ∧ Blocks b) ∧ (∀ y ∈ names ds', y ∉ fvs) ∧
      ∀ ρ d D, semD (bindAll ρ d (names ds')) D ds' = semD (bindAll ρ d (names ds)) D ds := by
  induction k generalizing i ds with
  | zero =>
    refine ⟨ds, rfl, rfl, hn, hv, hb, fun y hy => ?_, fun _ _ _ => rfl⟩
    obtain ⟨j, hj⟩ := List.mem_iff_getElem?.1 hy
    refine hdone j ?_ y hj
    rcases Nat.lt_or_ge j (names ds).length with h | h
    · simp only [names, List.length_map] at h; omega
    · rw [List.getElem?_eq_none h] at hj; cases hj
  | succ k ih =>
    have hi : i < (names ds).length := by simp only [names, List.length_map]; omega
    have hget : (names ds)[i]? = some ((names ds).getD i "") := by
      simp [List.getD_eq_getElem?_getD, List.getElem?_eq_getElem hi]
    unfold renameBlock
    generalize hp : (names ds).getD i "" = p at hget ⊢
    by_cases hc : fvs.contains p = true
    · simp only [hc, if_true]
      have hfr := search_fresh p (v :: (names ds ++ (allNamesD ds ++ fvs)))
      change freshName p (v :: (names ds ++ (allNamesD ds ++ fvs))) ∉ _ at hfr
      generalize freshName p (v :: (names ds ++ (allNamesD ds ++ fvs))) = f at hfr ⊢
      simp only [List.mem_cons, List.mem_append, not_or] at hfr
      obtain ⟨f1, f2, f3, f4⟩ := hfr
      have hr : ∀ b ∈ ds.map Prod.snd,
          (∀ ρ d, sem ρ d (sub b p (.var f) [f]) = sem (upd ρ p (fun d' => sem ρ d' (.var f))) d b) ∧
          Blocks (sub b p (.var f) [f]) ∧ height (sub b p (.var f) [f]) ≤ n := by
        intro b hbm
        obtain ⟨g1, g2, g3⟩ := hg b p (.var f) [f] (hb b hbm).1 (hb b hbm).2 (by
          intro y hy; simp only [occursFree, beq_iff_eq] at hy; simp [hy])
        exact ⟨g1, g2 (by simp [Blocks]), g3 (by simp [height])⟩
      have hnames : names ((mapBodies (fun b => sub b p (.var f) [f]) ds).modify i (fun d => (f, d.2))) =
          (names ds).set i f := by rw [names_modify, names_mapBodies]
      have hsnd : ((mapBodies (fun b => sub b p (.var f) [f]) ds).modify i (fun d => (f, d.2))).map Prod.snd =
          (ds.map Prod.snd).map (fun b => sub b p (.var f) [f]) := by rw [snd_modify, snd_mapBodies]
      obtain ⟨ds', e, h1, h2, h3, h4, h5, h6⟩ := ih (i + 1)
        ((mapBodies (fun b => sub b p (.var f) [f]) ds).modify i (fun d => (f, d.2)))
        (by simp [mapBodies]; omega) (by rw [hnames]; exact List.Nodup.set hn f2)
        (by
          rw [hnames]
          intro h
          rcases List.mem_or_eq_of_mem_set h with h | h
          · exact hv h
          · exact f1 h.symm)
        (by
          rw [hsnd]
          intro b hbm
          obtain ⟨c, hcm, rfl⟩ := List.mem_map.1 hbm
          exact ⟨(hr c hcm).2.2, (hr c hcm).2.1⟩)
        (by
          rw [hnames]
          intro j hj y hy
          by_cases e : i = j
          · subst e
            simp only [List.getElem?_set, if_true, hi] at hy
            exact (Option.some.inj hy) ▸ f4
          · simp only [List.getElem?_set, e, if_false] at hy
            exact hdone j (by omega) y hy)
      refine ⟨ds', e, ?_, h2, h3, h4, h5, fun ρ d D => ?_⟩
      · rw [h1]; simp [mapBodies]
      · rw [h6, hnames, semD_snd, hsnd, semD_snd, List.map_map]
        refine List.map_congr_left (fun b hbm => ?_)
        simp only [Function.comp]
        rw [(hr b hbm).1]
        refine sem_congr b _ (fun y hy => ?_)
        have hyf : y ≠ f := by
          rintro rfl
          obtain ⟨c, hcm, rfl⟩ := List.mem_map.1 hbm
          exact f3 (mem_allNamesD.2 ⟨c, hcm, .inr (occursFree_allNames _ hy)⟩)
        simpa only [sem] using bindAll_set hn hget f2 ρ d hyf
    · simp only [hc]
      refine ih (i + 1) ds (by omega) hn hv hb ?_
      intro j hj y hy
      by_cases e : j = i
      · subst e
        rw [hget] at hy
        have := Option.some.inj hy
        subst this
        simpa using hc
      · exact hdone j (by omega) y hy

theorem bindAll_upd {ns : List String} {v : String} (hv : v ∉ ns) (ρ : Env) (u : Nat → NL) (d : Nat) :
    upd (bindAll ρ d ns) v u = bindAll (upd ρ v u) d ns := by
  funext y
  by_cases e : y = v
  · subst e
    rw [bindAll_not_mem hv]
    simp [upd]
  · simp only [upd, e, if_false]
    exact bindAll_congr (fun _ => by simp [upd, e])

theorem sem_bindAll_unused {r : Term} {ns : List String} (h : ∀ y ∈ ns, ¬ occursFree y r = true) (ρ : Env)
    (d d' : Nat) : sem (bindAll ρ d ns) d' r = sem ρ d' r := by
  refine sem_congr r d' (fun y hy => bindAll_not_mem (fun hm => h y hm hy) ρ d)

theorem maxle {a b n : Nat} : Nat.max a b + 1 ≤ n + 1 ↔ a ≤ n ∧ b ≤ n := by
  rw [Nat.add_le_add_iff_right]; exact Nat.max_le

theorem maxle3 {a b c n : Nat} : Nat.max a (Nat.max b c) + 1 ≤ n + 1 ↔ a ≤ n ∧ b ≤ n ∧ c ≤ n := by
  rw [maxle]; exact and_congr_right (fun _ => Nat.max_le)

theorem upd_self (ρ : Env) (v : String) : upd ρ v (fun d' => ρ v d') = ρ := by
  funext y; by_cases e : y = v <;> simp [upd, e]

theorem substAvoid_good (n : Nat) : Good (substAvoid n) n := by
  induction n with
  | zero =>
    intro b v r fvs hb hk hf
    cases b with
    | var x =>
      by_cases e : x = v
      · refine ⟨fun ρ d => ?_, fun h => ?_, fun h => ?_⟩ <;> simp [substAvoid, sem, upd, e, *]
      · refine ⟨fun ρ d => ?_, fun h => ?_, fun h => ?_⟩ <;> simp [substAvoid, sem, upd, e, Blocks, height]
    | sort u => exact ⟨fun ρ d => by simp [substAvoid, sem], fun _ => by simp [substAvoid, Blocks],
        fun _ => by simp [substAvoid, height]⟩
    | lit u => exact ⟨fun ρ d => by simp [substAvoid, sem], fun _ => by simp [substAvoid, Blocks],
        fun _ => by simp [substAvoid, height]⟩
    | hole => exact ⟨fun ρ d => by simp [substAvoid, sem], fun _ => by simp [substAvoid, Blocks],
        fun _ => by simp [substAvoid, height]⟩
    | glob u => exact ⟨fun ρ d => by simp [substAvoid, sem], fun _ => by simp [substAvoid, Blocks],
        fun _ => by simp [substAvoid, height]⟩
    | const u ls => exact ⟨fun ρ d => by simp [substAvoid, sem], fun _ => by simp [substAvoid, Blocks],
        fun _ => by simp [substAvoid, height]⟩
    | app f a => simp [height] at hb
    | pi x f a => simp [height] at hb
    | lam x f a => simp [height] at hb
    | fix x a => simp [height] at hb
    | mfix x a => simp [height] at hb
    | letE x t w a => simp [height] at hb
    | mtch d m cs => simp [height] at hb
  | succ n ih =>
    intro b v r fvs hb hk hf
    cases b with
    | var x =>
      by_cases e : x = v
      · refine ⟨fun ρ d => ?_, fun h => ?_, fun h => ?_⟩ <;> simp [substAvoid, sem, upd, e, *]
      · refine ⟨fun ρ d => ?_, fun h => ?_, fun h => ?_⟩ <;> simp [substAvoid, sem, upd, e, Blocks, height]
    | sort u => exact ⟨fun ρ d => by simp [substAvoid, sem], fun _ => by simp [substAvoid, Blocks],
        fun _ => by simp [substAvoid, height]⟩
    | lit u => exact ⟨fun ρ d => by simp [substAvoid, sem], fun _ => by simp [substAvoid, Blocks],
        fun _ => by simp [substAvoid, height]⟩
    | hole => exact ⟨fun ρ d => by simp [substAvoid, sem], fun _ => by simp [substAvoid, Blocks],
        fun _ => by simp [substAvoid, height]⟩
    | glob u => exact ⟨fun ρ d => by simp [substAvoid, sem], fun _ => by simp [substAvoid, Blocks],
        fun _ => by simp [substAvoid, height]⟩
    | const u ls => exact ⟨fun ρ d => by simp [substAvoid, sem], fun _ => by simp [substAvoid, Blocks],
        fun _ => by simp [substAvoid, height]⟩
    | app f a =>
      simp only [height, maxle] at hb
      simp only [Blocks] at hk
      obtain ⟨a1, a2, a3⟩ := ih f v r fvs hb.1 hk.1 hf
      obtain ⟨b1, b2, b3⟩ := ih a v r fvs hb.2 hk.2 hf
      refine ⟨fun ρ d => ?_, fun h => ?_, fun h => ?_⟩
      · simp only [substAvoid, sem, a1, b1]
      · simp only [substAvoid, Blocks]; exact ⟨a2 h, b2 h⟩
      · simp only [substAvoid, height, maxle]; exact ⟨a3 h, b3 h⟩
    | pi x f a =>
      simp only [height, maxle] at hb
      simp only [Blocks] at hk
      obtain ⟨a1, a2, a3⟩ := ih f v r fvs hb.1 hk.1 hf
      obtain ⟨b1, b2, b3⟩ := underBinder_good ih v x hb.2 hk.2 hf
      refine ⟨fun ρ d => ?_, fun h => ?_, fun h => ?_⟩
      · simp only [substAvoid, sem, a1, b1]
      · simp only [substAvoid, Blocks]; exact ⟨a2 h, b2 h⟩
      · simp only [substAvoid, height, maxle]; exact ⟨a3 h, b3 h⟩
    | lam x f a =>
      simp only [height, maxle] at hb
      simp only [Blocks] at hk
      obtain ⟨a1, a2, a3⟩ := ih f v r fvs hb.1 hk.1 hf
      obtain ⟨b1, b2, b3⟩ := underBinder_good ih v x hb.2 hk.2 hf
      refine ⟨fun ρ d => ?_, fun h => ?_, fun h => ?_⟩
      · simp only [substAvoid, sem, a1, b1]
      · simp only [substAvoid, Blocks]; exact ⟨a2 h, b2 h⟩
      · simp only [substAvoid, height, maxle]; exact ⟨a3 h, b3 h⟩
    | fix x a =>
      simp only [height, Nat.add_le_add_iff_right] at hb
      simp only [Blocks] at hk
      obtain ⟨b1, b2, b3⟩ := underBinder_good ih v x hb hk hf
      refine ⟨fun ρ d => ?_, fun h => ?_, fun h => ?_⟩
      · simp only [substAvoid, sem, b1]
      · simp only [substAvoid, Blocks]; exact b2 h
      · simp only [substAvoid, height, Nat.add_le_add_iff_right]; exact b3 h
    | letE x t w a =>
      simp only [height, maxle3] at hb
      simp only [Blocks] at hk
      obtain ⟨a1, a2, a3⟩ := ih t v r fvs hb.1 hk.1 hf
      obtain ⟨c1, c2, c3⟩ := ih w v r fvs hb.2.1 hk.2.1 hf
      obtain ⟨b1, b2, b3⟩ := underBinder_good ih v x hb.2.2 hk.2.2 hf
      refine ⟨fun ρ d => ?_, fun h => ?_, fun h => ?_⟩
      · simp only [substAvoid, sem, a1, b1, c1]
      · simp only [substAvoid, Blocks]; exact ⟨a2 h, c2 h, b2 h⟩
      · simp only [substAvoid, height, maxle3]; exact ⟨a3 h, c3 h, b3 h⟩
    | mtch e m cs =>
      simp only [height, maxle3] at hb
      simp only [Blocks] at hk
      obtain ⟨a1, a2, a3⟩ := ih e v r fvs hb.1 hk.1 hf
      obtain ⟨c1, c2, c3⟩ := ih m v r fvs hb.2.1 hk.2.1 hf
      have hcs := fun c hc => ih c v r fvs (heightL_le.1 hb.2.2 c hc) (blocksL_iff.1 hk.2.2 c hc) hf
      refine ⟨fun ρ d => ?_, fun h => ?_, fun h => ?_⟩
      · simp only [substAvoid, sem, a1, c1, semL_eq, List.map_map]
        congr 1
        exact List.map_congr_left (fun c hc => (hcs c hc).1 ρ d)
      · simp only [substAvoid, Blocks]
        refine ⟨a2 h, c2 h, blocksL_iff.2 (fun c hc => ?_)⟩
        obtain ⟨c', hc', rfl⟩ := List.mem_map.1 hc
        exact (hcs c' hc').2.1 h
      · simp only [substAvoid, height, maxle3]
        refine ⟨a3 h, c3 h, heightL_le.2 (fun c hc => ?_)⟩
        obtain ⟨c', hc', rfl⟩ := List.mem_map.1 hc
        exact (hcs c' hc').2.2 h
    | mfix ds i =>
      by_cases hv : v ∈ names ds
      · have e : substAvoid (n + 1) (.mfix ds i) v r fvs = .mfix ds i := by
          simp [substAvoid, hv]
        rw [e]
        refine ⟨fun ρ d => ?_, fun _ => hk, fun _ => hb⟩
        refine sem_congr _ d (fun y hy => ?_)
        simp only [occursFree, Bool.and_eq_true, Bool.not_eq_true', List.contains_eq_mem,
          decide_eq_false_iff_not] at hy
        have : y ≠ v := fun e => hy.1 (e ▸ hv)
        simp [upd, this]
      · simp only [height, Nat.add_le_add_iff_right] at hb
        simp only [Blocks] at hk
        have hb' : ∀ b ∈ ds.map Prod.snd, height b ≤ n ∧ Blocks b := by
          intro b hbm
          obtain ⟨c, hcm, rfl⟩ := List.mem_map.1 hbm
          exact ⟨heightD_le.1 hb c hcm, blocksD_iff.1 hk.2 c hcm⟩
        obtain ⟨ds', e, h1, h2, h3, h4, h5, h6⟩ := renameBlock_good ih v fvs ds.length 0 ds (by omega)
          hk.1 hv hb' (fun j hj => absurd hj (Nat.not_lt_zero j))
        have hs := fun b hbm => ih b v r fvs (h4 b hbm).1 (h4 b hbm).2 hf
        have hd : ∀ c ∈ ds', c.2 ∈ ds'.map Prod.snd := fun c hc => List.mem_map.2 ⟨c, hc, rfl⟩
        have e' : substAvoid (n + 1) (.mfix ds i) v r fvs =
            .mfix (mapBodies (fun b => substAvoid n b v r fvs) ds') i := by
          simp [substAvoid, hv, e]
        rw [e']
        refine ⟨fun ρ d => ?_, fun h => ?_, fun h => ?_⟩
        · simp only [sem]
          congr 1
          rw [names_mapBodies, ← h6]
          have hl : (mapBodies (fun b => substAvoid n b v r fvs) ds').length = ds.length := by
            simp [mapBodies, h1]
          rw [hl, semD_snd, snd_mapBodies, semD_snd, List.map_map]
          refine List.map_congr_left (fun b hbm => ?_)
          simp only [Function.comp]
          rw [(hs b hbm).1, bindAll_upd h3]
          congr 3
          funext d'
          exact sem_bindAll_unused (fun y hy hyr => h5 y hy (hf y hyr)) ρ d d'
        · simp only [Blocks]
          refine ⟨?_, blocksD_iff.2 (fun c hc => ?_)⟩
          · have := names_mapBodies (fun b => substAvoid n b v r fvs) ds'
            simp only [names] at this h2
            rw [this]; exact h2
          · obtain ⟨c', hc', rfl⟩ := List.mem_map.1 hc
            exact (hs c'.2 (hd c' hc')).2.1 h
        · simp only [height, Nat.add_le_add_iff_right]
          refine heightD_le.2 (fun c hc => ?_)
          obtain ⟨c', hc', rfl⟩ := List.mem_map.1 hc
          exact (hs c'.2 (hd c' hc')).2.2 h

/-- Substitution changes the environment. -/
theorem sem_substitute {b : Term} (hb : Blocks b) (v : String) (r : Term) (ρ : Env) (d : Nat) :
    sem ρ d (substitute b v r) = sem (upd ρ v (fun d' => sem ρ d' r)) d b := by
  unfold substitute
  split
  · exact (substAvoid_good (height b) b v r (freeVars r) (Nat.le_refl _) hb (fun y => mem_freeVars.2)).1 ρ d
  · rename_i h
    refine sem_congr b d (fun y hy => ?_)
    have : y ≠ v := fun e => h (e ▸ hy)
    simp [upd, this]

theorem blocks_substitute {b : Term} (hb : Blocks b) (v : String) {r : Term} (hr : Blocks r) :
    Blocks (substitute b v r) := by
  unfold substitute
  split
  · exact (substAvoid_good (height b) b v r (freeVars r) (Nat.le_refl _) hb (fun y => mem_freeVars.2)).2.1 hr
  · exact hb

/-! ### From environments to nameless terms -/

/-- The environment of a list of binders. -/
def env (Γ : List String) : Env := fun y =>
  match place y Γ with
  | some k => fun d => .bvar (d - 1 - (Γ.length - 1 - k))
  | none => fun _ => .fvar y

theorem env_cons (x : String) (Γ : List String) : env (x :: Γ) = bind (env Γ) x Γ.length := by
  funext y
  by_cases e : x = y
  · subst e
    simp [env, place, bind]
  · simp only [env, place, e, if_false, bind, Ne.symm e]
    cases h : place y Γ with
    | none => rfl
    | some k =>
      funext d
      simp only [Option.map_some, List.length_cons]
      congr 1
      omega

theorem bindAll_env (ns Γ : List String) : bindAll (env Γ) Γ.length ns = env (ns.reverse ++ Γ) := by
  induction ns generalizing Γ with
  | nil => rfl
  | cons x xs ih =>
    rw [bindAll, ← env_cons]
    have := ih (x :: Γ)
    simpa using this

theorem place_lt {x : String} {Γ : List String} {k : Nat} (h : place x Γ = some k) : k < Γ.length := by
  induction Γ generalizing k with
  | nil => simp [place] at h
  | cons y ys ih =>
    simp only [place] at h
    split at h
    · simp at h; subst h; simp
    · cases h' : place x ys with
      | none => simp [h'] at h
      | some j =>
        simp [h'] at h
        have := ih h'
        simp only [List.length_cons]; omega

theorem namelessL_eq (Γ : List String) (cs : List Term) : namelessL Γ cs = cs.map (nameless Γ) := by
  induction cs with
  | nil => rfl
  | cons c cs ih => simp [namelessL, ih]

theorem namelessD_eq (Γ : List String) (ds : List (String × Term)) :
    namelessD Γ ds = ds.map (fun x => nameless Γ x.2) := by
  induction ds with
  | nil => rfl
  | cons c cs ih => cases c; simp [namelessD, ih]

theorem nameless_sem (t : Term) : ∀ Γ : List String, nameless Γ t = sem (env Γ) Γ.length t := by
  induction t using Term.ind with
  | var x =>
    intro Γ
    simp only [nameless, sem, env]
    cases h : place x Γ with
    | none => rfl
    | some k =>
      have := place_lt h
      simp only
      congr 1
      omega
  | sort u => intros; rfl
  | lit l => intros; rfl
  | hole => intros; rfl
  | glob n => intros; rfl
  | const n ls => intros; rfl
  | app f a i1 i2 => intro Γ; simp only [nameless, sem, i1, i2]
  | pi x a b i1 i2 => intro Γ; simp only [nameless, sem, i1, i2, env_cons, List.length_cons]
  | lam x a b i1 i2 => intro Γ; simp only [nameless, sem, i1, i2, env_cons, List.length_cons]
  | fix x b i2 => intro Γ; simp only [nameless, sem, i2, env_cons, List.length_cons]
  | mfix ds i ih =>
    intro Γ
    simp only [nameless, sem, namelessD_eq, semD_eq]
    congr 1
    refine List.map_congr_left (fun x hx => ?_)
    rw [ih x hx, bindAll_env]
    simp [names, Nat.add_comm]
  | letE x t w b i1 i2 i3 => intro Γ; simp only [nameless, sem, i1, i2, i3, env_cons, List.length_cons]
  | mtch e m cs i1 i2 i3 =>
    intro Γ
    simp only [nameless, sem, i1, i2, namelessL_eq, semL_eq]
    congr 1
    exact List.map_congr_left (fun x hx => i3 x hx Γ)

theorem substL_eq (x : String) (u : NL) (cs : List NL) : NL.substL x u cs = cs.map (NL.subst x u) := by
  induction cs with
  | nil => rfl
  | cons c cs ih => simp [NL.substL, ih]

theorem bind_map (ρ : Env) (x y : String) (u : NL) (d : Nat) :
    (fun z d' => NL.subst y u (bind ρ x d z d')) = bind (fun z d' => NL.subst y u (ρ z d')) x d := by
  funext z d'
  by_cases e : z = x <;> simp [bind, e, NL.subst]

theorem bindAll_map (ns : List String) (ρ : Env) (y : String) (u : NL) (d : Nat) :
    (fun z d' => NL.subst y u (bindAll ρ d ns z d')) = bindAll (fun z d' => NL.subst y u (ρ z d')) d ns := by
  induction ns generalizing ρ d with
  | nil => rfl
  | cons x xs ih => rw [bindAll, ih, bind_map]; rfl

theorem sem_subst (t : Term) : ∀ (ρ : Env) (d : Nat) (x : String) (u : NL),
    NL.subst x u (sem ρ d t) = sem (fun y d' => NL.subst x u (ρ y d')) d t := by
  induction t using Term.ind with
  | var x => intros; rfl
  | sort u => intros; simp [sem, NL.subst]
  | lit l => intros; simp [sem, NL.subst]
  | hole => intros; simp [sem, NL.subst]
  | glob n => intros; simp [sem, NL.subst]
  | const n ls => intros; simp [sem, NL.subst]
  | app f a i1 i2 => intros; simp only [sem, NL.subst, i1, i2]
  | pi x a b i1 i2 => intros; simp only [sem, NL.subst, i1, i2, bind_map]
  | lam x a b i1 i2 => intros; simp only [sem, NL.subst, i1, i2, bind_map]
  | fix x b i2 => intros; simp only [sem, NL.subst, i2, bind_map]
  | mfix ds i ih =>
    intro ρ d x u
    simp only [sem, NL.subst, substL_eq, semD_eq, List.map_map]
    congr 1
    refine List.map_congr_left (fun c hc => ?_)
    simp only [Function.comp]
    rw [ih c hc, bindAll_map]
  | letE x t w b i1 i2 i3 => intros; simp only [sem, NL.subst, i1, i2, i3, bind_map]
  | mtch e m cs i1 i2 i3 =>
    intro ρ d x u
    simp only [sem, NL.subst, i1, i2, substL_eq, semL_eq, List.map_map]
    congr 1
    exact List.map_congr_left (fun c hc => i3 c hc ρ d x u)

theorem bind_shift {ρ ρ' : Env} (h : ∀ y d', ρ' y (d' + 1) = ρ y d') (x : String) (d : Nat) :
    ∀ y d', bind ρ' x (d + 1) y (d' + 1) = bind ρ x d y d' := by
  intro y d'
  by_cases e : y = x
  · simp only [bind, e, if_true]; congr 1; omega
  · simp only [bind, e, if_false]; exact h y d'

theorem bindAll_shift (ns : List String) {ρ ρ' : Env} (h : ∀ y d', ρ' y (d' + 1) = ρ y d') (d : Nat) :
    ∀ y d', bindAll ρ' (d + 1) ns y (d' + 1) = bindAll ρ d ns y d' := by
  induction ns generalizing ρ ρ' d with
  | nil => exact h
  | cons x xs ih => exact ih (bind_shift h x d) (d + 1)

theorem sem_shift (t : Term) : ∀ {ρ ρ' : Env} (d : Nat), (∀ y d', ρ' y (d' + 1) = ρ y d') →
    sem ρ' (d + 1) t = sem ρ d t := by
  induction t using Term.ind with
  | var x => intro ρ ρ' d h; exact h x d
  | sort u => intros; rfl
  | lit l => intros; rfl
  | hole => intros; rfl
  | glob n => intros; rfl
  | const n ls => intros; rfl
  | app f a i1 i2 => intro ρ ρ' d h; simp only [sem, i1 d h, i2 d h]
  | pi x a b i1 i2 => intro ρ ρ' d h; simp only [sem, i1 d h, i2 (d + 1) (bind_shift h x d)]
  | lam x a b i1 i2 => intro ρ ρ' d h; simp only [sem, i1 d h, i2 (d + 1) (bind_shift h x d)]
  | fix x b i2 => intro ρ ρ' d h; simp only [sem, i2 (d + 1) (bind_shift h x d)]
  | mfix ds i ih =>
    intro ρ ρ' d h
    simp only [sem, semD_eq]
    congr 1
    refine List.map_congr_left (fun c hc => ?_)
    have := ih c hc (d + ds.length) (bindAll_shift (names ds) h d)
    rw [Nat.add_right_comm]; exact this
  | letE x t w b i1 i2 i3 =>
    intro ρ ρ' d h; simp only [sem, i1 d h, i2 d h, i3 (d + 1) (bind_shift h x d)]
  | mtch e m cs i1 i2 i3 =>
    intro ρ ρ' d h
    simp only [sem, i1 d h, i2 d h, semL_eq]
    congr 1
    exact List.map_congr_left (fun c hc => i3 c hc d h)

theorem sem_env_nil (t : Term) (d : Nat) : sem (env []) d t = nameless [] t := by
  induction d with
  | zero => rw [nameless_sem]; rfl
  | succ d ih => rw [sem_shift t (ρ := env []) d (fun y d' => rfl), ih]

/-- The substitution theorem. -/
theorem nameless_substitute {b : Term} (hb : Blocks b) (x : String) (s : Term) :
    nameless [] (substitute b x s) = NL.subst x (nameless [] s) (nameless [] b) := by
  rw [nameless_sem, nameless_sem b]
  simp only [List.length_nil]
  rw [sem_substitute hb, sem_subst]
  congr 1
  funext y d'
  by_cases e : y = x
  · simp only [upd, e, if_true, env, place, NL.subst]
    exact sem_env_nil s d'
  · simp [upd, e, env, place, NL.subst]

end Verif.Core
