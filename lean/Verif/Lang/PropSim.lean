import Verif.Lang.Effects
import Verif.Lang.FoldSim

/-! # Propagating constants through a program that declares new names only -/
namespace Verif.Lang

/-! ## The invariant -/

/-- What the pass believes is true: the known names hold their literals, and no function can
change them. -/
def Holds (G : Sym → Prop) (env : PEnv) (s : State) : Prop :=
  ∀ x l, env x = some l → s.env.lookup x = some (litVal l) ∧ (¬ G x ∨ (s.env.cur x).isSome = true)

theorem litVal_notList (l : Lit) : (litVal l).isList = false := by cases l <;> rfl

section
variable {G X : Sym → Prop} {env : PEnv}

theorem Holds.effB {s s' : State} (h : Holds G env s) (he : EffB G X s s')
    (hx : ∀ x, env x ≠ none → ¬ X x) : Holds G env s' := by
  intro x l hl
  obtain ⟨h1, h2⟩ := h x l hl
  have hX := hx x (by simp [hl])
  rw [lookup_cur] at h1 ⊢
  obtain ⟨c1, c2⟩ := he.cur x
  cases hc : s.env.cur x with
  | some v =>
    simp only [hc, Option.some_or, Option.some.injEq] at h1
    subst h1
    have := c2 hX _ (litVal_notList l) hc
    simp [this]
  | none =>
    simp only [hc, Option.none_or] at h1
    have hg : ¬ G x := by
      rcases h2 with h2 | h2
      · exact h2
      · simp [hc] at h2
    have hc' : s'.env.cur x = none := by simpa [hc] using c1
    rw [hc', Option.none_or]
    exact ⟨(he.globals x).2 (by tauto) _ (litVal_notList l) h1, .inl hg⟩

theorem Holds.effE {s s' : State} (h : Holds G env s) (he : EffE G s s') : Holds G env s' :=
  h.effB (X := fun _ => False) he.toB (by simp)

theorem Holds.push {s : State} (h : Holds G env s) :
    Holds G env (s.withEnv (·.pushScope)) := h

/-- Inside a block or a function. -/
def Nested (s : State) : Prop := s.env.saves ≠ [] ∨ s.env.frames ≠ []

/-- At the top level. -/
def Top (s : State) : Prop :=
  s.env.frames = [] ∧ s.env.saves = [] ∧ ∀ x, s.env.mainBlock x = none

theorem define_nested {e : Env} (h : e.saves ≠ [] ∨ e.frames ≠ []) (x : Sym) (v : Value) :
    (e.define x v).cur = e.cur.put x (some v) ∧ (e.define x v).globals = e.globals := by
  by_cases hf : e.frames.isEmpty = true
  · have hs : e.saves.isEmpty = false := by
      rcases h with h | h
      · cases hs : e.saves with
        | nil => exact absurd hs h
        | cons _ _ => rfl
      · exact absurd (List.isEmpty_iff.1 hf) h
    simp [Env.define, hf, hs, Env.cur]
  · simp [Env.define, hf, Env.cur]

theorem define_top {s : State} (h : Top s) (x : Sym) (v : Value) :
    Top (s.withEnv (·.define x v)) ∧
      (s.withEnv (·.define x v)).env.globals = s.env.globals.put x (some v) := by
  simp [Top, State.withEnv, Env.define, h.1, h.2.1]
  exact h.2.2

theorem Holds.define {s : State} (h : Holds G env s) (hn : Nested s) {x : Sym} {v : Value}
    {env' : PEnv} (he : ∀ y l, env' y = some l → (y = x ∧ v = litVal l) ∨ (y ≠ x ∧ env y = some l)) :
    Holds G env' (s.withEnv (·.define x v)) := by
  obtain ⟨d1, d2⟩ := define_nested hn x v
  intro y l hl
  rw [lookup_cur]
  simp only [State.withEnv, d1, d2]
  rcases he y l hl with ⟨rfl, rfl⟩ | ⟨hy, hy2⟩
  · simp [VMap.put]
  · have := h y l hy2
    rw [lookup_cur] at this
    simpa [VMap.put, hy] using this

theorem Holds.defineTop {s : State} (h : Holds G env s) (hn : Top s) {x : Sym} {v : Value}
    {env' : PEnv} (hx : ¬ G x)
    (he : ∀ y l, env' y = some l → (y = x ∧ v = litVal l) ∨ (y ≠ x ∧ env y = some l)) :
    Holds G env' (s.withEnv (·.define x v)) := by
  obtain ⟨d1, d2⟩ := define_top hn x v
  have hcur : ∀ y, (s.withEnv (·.define x v)).env.cur y = none := by
    intro y
    simp only [Env.cur, d1.1, List.isEmpty_nil, if_true]
    exact d1.2.2 y
  have hcur0 : ∀ y, s.env.cur y = none := by
    intro y
    simp only [Env.cur, hn.1, List.isEmpty_nil, if_true]
    exact hn.2.2 y
  intro y l hl
  rw [lookup_cur, hcur, d2, Option.none_or]
  rcases he y l hl with ⟨rfl, rfl⟩ | ⟨hy, hy2⟩
  · simp [VMap.put, hx]
  · have := h y l hy2
    rw [lookup_cur, hcur0] at this
    simpa [VMap.put, hy] using this

theorem Top.effB {s s' : State} (h : Top s) (he : EffB G X s s') : Top s' := by
  refine ⟨he.frames.trans h.1, he.saves.trans h.2.1, fun x => ?_⟩
  have := (he.cur x).1
  simp only [Env.cur, he.frames, h.1, List.isEmpty_nil, if_true, h.2.2 x] at this
  simpa using this

end

/-! ## Substitution -/

section
variable {G : Sym → Prop} {env : PEnv} {I : Inst}

theorem bind_congr {α β : Type} {r r' : Res α} {k k' : α → State → Res β} (h : r = r')
    (hk : ∀ a s', r' = (.ok a, s') → k a s' = k' a s') : r.bind k = r'.bind k' := by
  subst h
  rcases r with ⟨r, s⟩
  cases r with
  | ok a => exact hk a s rfl
  | error e => rfl

theorem evBin_congr {op : BinOp} {fa fa' fb fb' : State → Res Value} {s : State}
    (ha : fa s = fa' s) (hb : ∀ a s', fa' s = (.ok a, s') → fb s' = fb' s') :
    evBin I op fa fb s = evBin I op fa' fb' s := by
  unfold evBin
  split
  · refine bind_congr ha fun a s' h => ?_
    rw [hb a s' h]
  · refine bind_congr ha fun a s' h => ?_
    rw [hb a s' h]
  · refine bind_congr ha fun a s' h => ?_
    rw [hb a s' h]

theorem evCall_congr {f : Sym} {n : Nat} {fa fa' : State → Res (List Value)} {s : State}
    (ha : fa s = fa' s) : evCall I f n fa s = evCall I f n fa' s := by
  unfold evCall
  rw [ha]

theorem substEs_length : ∀ es : List Expr, (substEs env es).length = es.length
  | [] => rfl
  | e :: es => by simp [substEs, substEs_length es]

mutual
/-- Substituting what is known changes nothing. -/
theorem substE_eq (hc : CallsEff G I) (hr : ∀ x v, I.reads x v = true) :
    ∀ (e : Expr) (s : State), FunInv G s → Holds G env s →
      evalE I (substE env e) s = evalE I e s
  | .lit l, s, _, _ => by simp [substE]
  | .var x, s, _, hh => by
    simp only [substE]
    split
    · rename_i l hl
      simp [evalE, evVar, (hh x l hl).1, hr]
    · rfl
  | .bin op a b, s, hi, hh => by
    simp only [substE, evalE]
    refine evBin_congr (substE_eq hc hr a s hi hh) fun v s' h => ?_
    have e1 := evalE_eff hc a s v s' hi h
    exact substE_eq hc hr b s' e1.funs (hh.effE e1)
  | .not a, s, hi, hh => by
    simp only [substE, evalE]
    rw [substE_eq hc hr a s hi hh]
  | .call f args, s, hi, hh => by
    simp only [substE, evalE, substEs_length]
    exact evCall_congr (substEs_eq hc hr args s hi hh)
  | .callv c args, s, hi, hh => by
    simp only [substE, evalE]
    refine bind_congr (substE_eq hc hr c s hi hh) fun v s' h => ?_
    have e1 := evalE_eff hc c s v s' hi h
    unfold evCallv
    rw [substEs_eq hc hr args s' e1.funs (hh.effE e1)]
  | .list items, s, hi, hh => by
    simp only [substE, evalE]
    rw [substEs_eq hc hr items s hi hh]
  | .index c i, s, _, _ => by simp [substE]
  | .length c, s, hi, hh => by
    simp only [substE, evalE]
    rw [substE_eq hc hr c s hi hh]
  | .closure ps b, s, _, _ => by simp [substE]

theorem substEs_eq (hc : CallsEff G I) (hr : ∀ x v, I.reads x v = true) :
    ∀ (es : List Expr) (s : State), FunInv G s → Holds G env s →
      evalEs I (substEs env es) s = evalEs I es s
  | [], s, _, _ => by simp [substEs]
  | e :: es, s, hi, hh => by
    simp only [substEs, evalEs]
    refine bind_congr (substE_eq hc hr e s hi hh) fun v s' h => ?_
    have e1 := evalE_eff hc e s v s' hi h
    rw [substEs_eq hc hr es s' e1.funs (hh.effE e1)]
end

end

/-! ## Simulation -/

/-- Bodies and their forms after propagation. -/
def propCorr (P : Prims) (G : Sym → Prop) : Corr where
  body b b' := freshSs [] b ∧ (∀ x ∈ allSetsSs b, G x) ∧ b' = propSs P (setsSs b) (fun _ => none) b
  clo b b' := b' = foldE P [] b
  bad e := Tripped (some e)

section
variable {P : Prims} {nz : Nat} {G : Sym → Prop} {I : Inst} {env : PEnv}

theorem st_funInv {s t : State} (h : (propCorr P G).st s t) : FunInv G s := by
  intro f fd hfd x hx
  rcases h.funs f with ⟨h1, _⟩ | ⟨a, b, h1, _, hab⟩
  · rw [h1] at hfd; cases hfd
  · rw [h1] at hfd; cases hfd
    exact hab.2.2.1 x hx

/-- The hypotheses every step of the simulation uses. -/
structure PropHyp (P : Prims) (nz : Nat) (G : Sym → Prop) (I : Inst) : Prop where
  law : Lawful P nz
  chk : IsChecked P nz [] I
  calls : (propCorr P G).calls I I
  eff : CallsEff G I

theorem PropHyp.reads (h : PropHyp P nz G I) (x : Sym) (v : Value) : I.reads x v = true := by
  rw [h.chk.reads]; simp [checkedRead]

theorem propE_sim (h : PropHyp P nz G I) (e : Expr) {s t : State} (hst : (propCorr P G).st s t)
    (hh : Holds G env s) : (propCorr P G).sim (evalE I e s) (evalE I (propE P env e) t) := by
  rw [← substE_eq h.eff h.reads e s (st_funInv hst) hh]
  exact foldE_simC (C := propCorr P G) (bools := []) h.law h.chk (fun _ h => h) (fun _ => rfl)
    h.calls (by simp) (substE env e) s t hst

theorem propCall_sim (h : PropHyp P nz G I) (f : Sym) (args : List Expr) {s t : State}
    (hst : (propCorr P G).st s t) (hh : Holds G env s) :
    (propCorr P G).sim (evalE I (.call f args) s) (evalE I (.call f (propEs P env args)) t) := by
  have := propE_sim h (.call f args) hst hh
  simpa only [propE, propEs, substE, foldE] using this

/-- A bind whose continuation may use what is known after the first step. -/
theorem sim_bindP {α β : Type} {C : Corr} {r r' : Res α} {k k' : α → State → Res β} (h : C.sim r r')
    (hk : ∀ a s s', r = (.ok a, s) → r' = (.ok a, s') → C.st s s' → C.sim (k a s) (k' a s')) :
    C.sim (r.bind k) (r'.bind k') := by
  intro hf
  rcases r with ⟨r, s⟩
  rcases r' with ⟨r', s'⟩
  cases r with
  | error e =>
    obtain ⟨h1, h2⟩ := h (by intro e' he'; exact hf e' (by cases he'; rfl))
    simp only at h1
    subst h1
    exact ⟨rfl, h2⟩
  | ok a =>
    obtain ⟨h1, h2⟩ := h (by intro e' he'; cases he')
    simp only at h1
    subst h1
    exact hk a s s' rfl rfl h2 hf

/-- Steps that agree from states with an invariant. -/
def simI {α : Type} (C : Corr) (Inv : State → Prop) (f g : State → Res α) : Prop :=
  ∀ s t, Inv s → C.st s t → C.sim (f s) (g t)

theorem simI_inScope {C : Corr} {Inv Inv' : State → Prop} {f g : State → Res Flow}
    (h : simI C Inv' f g) (hi : ∀ s, Inv s → Inv' (s.withEnv (·.pushScope))) :
    simI C Inv (inScope f) (inScope g) := by
  intro s t hs hst
  exact sim_bind (h _ _ (hi s hs) (st_env hst _)) fun fl s' t' h' => sim_ret _ (st_env h' _)

theorem simI_whileLoop {C : Corr} {Inv : State → Prop} {fc gc : State → Res Value}
    {fb gb : State → Res Flow} (hc : simI C Inv fc gc) (hb : simI C Inv fb gb)
    (kc : ∀ s t a s', Inv s → C.st s t → fc s = (.ok a, s') → Inv s')
    (kb : ∀ s t a s', Inv s → C.st s t → fb s = (.ok a, s') → Inv s') :
    ∀ n, simI C Inv (whileLoop P fc fb n) (whileLoop P gc gb n)
  | 0 => fun _ _ _ h => sim_ret _ h
  | n + 1 => by
    intro s t hs hst
    refine sim_bindP (hc s t hs hst) fun v s' t' h1 _ h' => ?_
    have hs' := kc s t v s' hs hst h1
    split
    · refine sim_bindP (hb s' t' hs' h') fun fl s2 t2 h2 _ h'' => ?_
      cases fl with
      | cont => exact simI_whileLoop hc hb kc kb n s2 t2 (kb _ _ _ _ hs' h' h2) h''
      | brk => exact sim_ret _ h''
      | ret v => exact sim_ret _ h''
    · exact sim_ret _ h'

theorem simI_eachItem {C : Corr} {Inv : State → Prop} (x : Sym) {fb gb : State → Res Flow}
    (hb : simI C Inv fb gb) (kd : ∀ s v, Inv s → Inv (s.withEnv (·.define x v)))
    (kb : ∀ s t a s', Inv s → C.st s t → fb s = (.ok a, s') → Inv s') :
    ∀ vs, simI C Inv (eachItem x fb vs) (eachItem x gb vs)
  | [] => fun _ _ _ h => sim_ret _ h
  | v :: vs => by
    intro s t hs hst
    refine sim_bindP (hb _ _ (kd s v hs) (st_env hst _)) fun fl s2 t2 h2 _ h'' => ?_
    cases fl with
    | cont => exact simI_eachItem x hb kd kb vs s2 t2 (kb _ _ _ _ (kd s v hs) (st_env hst _) h2) h''
    | brk => exact sim_ret _ h''
    | ret v => exact sim_ret _ h''

/-- What a block knows of the pass's environment. -/
structure EnvOk (muts seen : List Sym) (env : PEnv) : Prop where
  seen : ∀ x, env x ≠ none → x ∈ seen
  muts : ∀ x, env x ≠ none → x ∉ muts

theorem EnvOk.weaken {muts seen : List Sym} {env : PEnv} (h : EnvOk muts seen env) (x : Sym) :
    EnvOk muts (x :: seen) env := ⟨fun y hy => by simp [h.seen y hy], h.muts⟩

theorem EnvOk.after {muts seen : List Sym} {env : PEnv} (h : EnvOk muts seen env) (st : Stmt) :
    EnvOk muts (declS st ++ seen) (afterS P muts env st) := by
  cases st with
  | letS x b m e =>
    simp only [declS, afterS, afterLet, List.cons_append, List.nil_append]
    split
    · split
      · rename_i l _ hm
        simp only [Bool.and_eq_true, Bool.not_eq_true', List.contains_eq_mem,
          decide_eq_false_iff_not] at hm
        constructor
        · intro y hy
          simp only [PEnv.insert] at hy
          split at hy
          · rename_i h'; simp [h']
          · simp [h.seen y hy]
        · intro y hy
          simp only [PEnv.insert] at hy
          split at hy
          · rename_i h'; rw [h']; exact hm.2
          · exact h.muts y hy
      · exact h.weaken x
    · exact h.weaken x
  | set x e =>
    simp only [declS, afterS, List.nil_append]
    constructor
    · intro y hy
      simp only [PEnv.remove] at hy
      split at hy
      · simp at hy
      · exact h.seen y hy
    · intro y hy
      simp only [PEnv.remove] at hy
      split at hy
      · simp at hy
      · exact h.muts y hy
  | _ => exact h

/-- What is known after a `Let`. -/
theorem afterLet_cases {muts : List Sym} {env : PEnv} {x : Sym} {m : Bool} {e : Expr} {v : Value}
    (hv : ∀ l, e = .lit l → v = litVal l) (hx : env x = none) (y : Sym) (l : Lit)
    (h : afterLet env muts x m e y = some l) :
    (y = x ∧ v = litVal l) ∨ (y ≠ x ∧ env y = some l) := by
  have hne : ∀ {y l}, env y = some l → y ≠ x := by
    rintro y l h' rfl; rw [hx] at h'; cases h'
  unfold afterLet at h
  split at h
  · rename_i l'
    split at h
    · simp only [PEnv.insert] at h
      split at h
      · rename_i h'
        cases h
        exact .inl ⟨h', hv _ rfl⟩
      · rename_i h'
        exact .inr ⟨h', h⟩
    · exact .inr ⟨hne h, h⟩
  · exact .inr ⟨hne h, h⟩

theorem holds_remove {s : State} (h : Holds G env s) (x : Sym) : Holds G (env.remove x) s := by
  intro y l hy
  simp only [PEnv.remove] at hy
  split at hy
  · cases hy
  · exact h y l hy

theorem afterS_other {muts : List Sym} {st : Stmt} (hl : isLet st = false) {s : State}
    (h : Holds G env s) : Holds G (afterS P muts env st) s := by
  cases st with
  | letS => simp [isLet] at hl
  | set x e => exact holds_remove h x
  | _ => exact h

theorem EffS.nested {X : Sym → Prop} {s t : State} (h : EffS G X s t) (hn : Nested s) : Nested t := by
  rcases hn with h' | h'
  · exact .inl (h.saves_ne h')
  · exact .inr (by rw [h.frames]; exact h')

mutual
theorem propS_sim (h : PropHyp P nz G I) (n : Nat) (muts : List Sym) :
    ∀ (st : Stmt) (env : PEnv) (seen : List Sym), freshS seen st → EnvOk muts seen env →
      (∀ x ∈ setsS st, x ∈ muts) → (∀ x ∈ funSetsS st, G x) → ∀ s t, Holds G env s →
      (propCorr P G).st s t → (propCorr P G).sim (exec I n st s) (exec I n (propS P muts env st) t)
  | .letS x b m e, env, seen, _, _, _, _ => by
    intro s t hh hst
    simp only [propS, exec]
    exact sim_bind (propE_sim h e hst hh) fun v => simF_doDefine x v
  | .set x e, env, seen, _, _, _, _ => by
    intro s t hh hst
    simp only [propS, exec]
    exact sim_bind (propE_sim h e hst hh) fun v => simF_doAssign x v
  | .callS f args, env, seen, _, _, _, _ => by
    intro s t hh hst
    simp only [propS, exec]
    exact sim_bind (propCall_sim h f args hst hh) fun v => simF_lift _
  | .ifS c th el, env, seen, hf, hok, hm, hg => by
    intro s t hh hst
    simp only [propS, exec]
    refine sim_bindP (propE_sim h c hst hh) fun v s' t' h1 _ h' => ?_
    have hh' := hh.effE (evalE_eff h.eff c s v s' (st_funInv hst) h1)
    split
    · exact simI_inScope (Inv := Holds G env) (Inv' := fun s => Nested s ∧ Holds G env s)
        (fun s t hs hst => propSs_sim h n muts th env seen hf.1 hok
          (fun x hx => hm x (by simp [setsS, hx])) (fun x hx => hg x (by simp [funSetsS, hx]))
          s t hs.1 hs.2 hst)
        (fun s hs => ⟨.inl (by simp [State.withEnv, Env.pushScope]), hs⟩) s' t' hh' h'
    · exact simI_inScope (Inv := Holds G env) (Inv' := fun s => Nested s ∧ Holds G env s)
        (fun s t hs hst => propSs_sim h n muts el env seen hf.2 hok
          (fun x hx => hm x (by simp [setsS, hx])) (fun x hx => hg x (by simp [funSetsS, hx]))
          s t hs.1 hs.2 hst)
        (fun s hs => ⟨.inl (by simp [State.withEnv, Env.pushScope]), hs⟩) s' t' hh' h'
  | .whileS c b, env, seen, hf, hok, hm, hg => by
    intro s t hh hst
    simp only [propS, exec]
    refine simI_whileLoop (C := propCorr P G) (Inv := Holds G env)
      (fun s t hs hst => propE_sim h c hst hs) ?_ ?_ ?_ n s t hh hst
    · exact simI_inScope (Inv := Holds G env) (Inv' := fun s => Nested s ∧ Holds G env s)
        (fun s t hs hst => propSs_sim h n muts b env seen hf hok
          (fun x hx => hm x (by simp [setsS, hx])) (fun x hx => hg x (by simp [funSetsS, hx]))
          s t hs.1 hs.2 hst)
        (fun s hs => ⟨.inl (by simp [State.withEnv, Env.pushScope]), hs⟩)
    · exact fun s t a s' hs hst h1 => hs.effE (evalE_eff h.eff c s a s' (st_funInv hst) h1)
    · exact fun s t a s' hs hst h1 => hs.effB (X := fun x => x ∈ muts)
        (inScope_eff (fun s fl s' hi hs h1 => execs_eff h.eff n b s fl s' (.inl hs)
          (fun x hx => hm x (by simp [setsS, hx])) (fun x hx => hg x (by simp [funSetsS, hx])) hi h1)
          (st_funInv hst) h1) hok.muts
  | .repeatS x e b, env, seen, hf, hok, hm, hg => by
    intro s t hh hst
    simp only [propS, exec]
    refine sim_bindP (propE_sim h e hst hh) fun v s' t' h1 _ h' => ?_
    have hh' := hh.effE (evalE_eff h.eff e s v s' (st_funInv hst) h1)
    refine sim_bindP (sim_ret _ h') fun vs s2 t2 h2 _ h'' => ?_
    have e2 : s2 = s' := (congrArg Prod.snd h2).symm
    subst e2
    have hx : env x = none := by
      by_contra hne
      exact hf.1 (hok.seen x hne)
    refine simI_inScope (Inv := Holds G env) (Inv' := fun s => s.env.saves ≠ [] ∧ Holds G env s)
      (simI_eachItem x (fun s t hs hst => ?_) ?_ ?_ vs)
      (fun s hs => ⟨by simp [State.withEnv, Env.pushScope], hs⟩) _ _ hh' h''
    · exact simI_inScope (Inv := fun s => s.env.saves ≠ [] ∧ Holds G env s)
        (Inv' := fun s => Nested s ∧ Holds G env s)
        (fun s t hs hst => propSs_sim h n muts b env (x :: seen) hf.2 (hok.weaken x)
          (fun x hx => hm x (by simp [setsS, hx])) (fun x hx => hg x (by simp [funSetsS, hx]))
          s t hs.1 hs.2 hst)
        (fun s hs => ⟨.inl (by simp [State.withEnv, Env.pushScope]), hs.2⟩) s t hs hst
    · intro s v hs
      refine ⟨define_saves_ne hs.1, hs.2.define (.inl hs.1) ?_⟩
      intro y l hy
      right
      refine ⟨?_, hy⟩
      rintro rfl; rw [hx] at hy; cases hy
    · intro s t a s' hs hst h1
      have e1 := inScope_eff (X := fun x => x ∈ muts)
        (fun s fl s' hi hs h1 => execs_eff h.eff n b s fl s' (.inl hs)
          (fun x hx => hm x (by simp [setsS, hx])) (fun x hx => hg x (by simp [funSetsS, hx])) hi h1)
          (st_funInv hst) h1
      exact ⟨by rw [e1.saves]; exact hs.1, hs.2.effB e1 hok.muts⟩
  | .ret none, env, seen, _, _, _, _ => fun s t _ hst => by
    simp only [propS, exec]; exact sim_ret _ hst
  | .ret (some e), env, seen, _, _, _, _ => by
    intro s t hh hst
    simp only [propS, exec]
    exact sim_bind (propE_sim h e hst hh) fun v => simF_lift _
  | .brk, env, seen, _, _, _, _ => fun s t _ hst => by
    simp only [propS, exec]; exact sim_ret _ hst
  | .funDef f ps b, env, seen, hf, _, _, hg => by
    intro s t _ hst
    simp only [propS, exec]
    exact sim_ret _ (st_defineFun hst f ⟨rfl, hf, fun x hx => hg x (by simpa [funSetsS] using hx),
      rfl⟩)
  | .showS e, env, seen, _, _, _, _ => by
    intro s t hh hst
    simp only [propS, exec]
    exact sim_bind (propE_sim h e hst hh) fun v => simF_doShow v
  | .assertS e, env, seen, _, _, _, _ => by
    intro s t hh hst
    simp only [propS, exec]
    exact sim_bind (propE_sim h e hst hh) fun v => simF_doAssert v
  | .push x e, env, seen, _, _, _, _ => by
    intro s t hh hst
    simp only [propS, exec]
    exact sim_bind (propE_sim h e hst hh) fun v => simF_doPush x v

theorem propSs_sim (h : PropHyp P nz G I) (n : Nat) (muts : List Sym) :
    ∀ (ss : List Stmt) (env : PEnv) (seen : List Sym), freshSs seen ss → EnvOk muts seen env →
      (∀ x ∈ setsSs ss, x ∈ muts) → (∀ x ∈ funSetsSs ss, G x) → ∀ s t, Nested s → Holds G env s →
      (propCorr P G).st s t →
      (propCorr P G).sim (execs I n ss s) (execs I n (propSs P muts env ss) t)
  | [], env, seen, _, _, _, _ => fun s t _ _ hst => by
    simp only [propSs, execs]; exact sim_ret _ hst
  | st :: ss, env, seen, hf, hok, hm, hg => by
    intro s t hn hh hst
    simp only [propSs, execs]
    have hm1 : ∀ x ∈ setsS st, x ∈ muts := fun x hx => hm x (by simp [setsSs, hx])
    have hg1 : ∀ x ∈ funSetsS st, G x := fun x hx => hg x (by simp [funSetsSs, hx])
    refine sim_bindP (propS_sim h n muts st env seen hf.1 hok hm1 hg1 s t hh hst)
      fun fl s' t' h1 h2 h' => ?_
    cases fl with
    | brk => exact sim_ret _ h'
    | ret v => exact sim_ret _ h'
    | cont =>
      have key : Nested s' ∧ Holds G (afterS P muts env st) s' := by
        cases hlet : isLet st with
        | false =>
          have e1 := exec_eff (X := fun x => x ∈ muts) h.eff n st s _ s' hlet hm1 hg1
            (st_funInv hst) h1
          exact ⟨e1.toS.nested hn, afterS_other hlet (hh.effB e1 hok.muts)⟩
        | true =>
          cases st <;> simp [isLet] at hlet
          rename_i x b m e
          simp only [exec, bind_ok_iff, doDefine, Prod.mk.injEq] at h1
          obtain ⟨v, s2, h3, _, rfl⟩ := h1
          have e2 := evalE_eff h.eff _ _ _ _ (st_funInv hst) h3
          have hn2 : Nested s2 := EffS.nested (EffB.toS (EffE.toB (X := fun _ => False) e2)) hn
          have hx : env x = none := by
            by_contra hne
            exact hf.1 (hok.seen x hne)
          have hv : ∀ l, propE P env e = .lit l → v = litVal l := by
            intro l hl
            have := propE_sim h e hst hh
            rw [h3, hl] at this
            have h4 := (this (by intro e' he'; cases he')).1
            simp only [evalE, Except.ok.injEq] at h4
            exact h4
          refine ⟨EffS.nested (define_effS (X := fun _ => False) e2.funs hn2 x v) hn2, ?_⟩
          exact (hh.effE e2).define hn2 (afterLet_cases hv hx)
      exact propSs_sim h n muts ss _ _ hf.2 (hok.after st)
        (fun x hx => hm x (by simp [setsSs, hx])) (fun x hx => hg x (by simp [funSetsSs, hx]))
        s' t' key.1 key.2 h'
end

theorem propSs_simTop (h : PropHyp P nz G I) (n : Nat) (muts : List Sym) :
    ∀ (ss : List Stmt) (env : PEnv) (seen : List Sym), freshSs seen ss → EnvOk muts seen env →
      (∀ x ∈ setsSs ss, x ∈ muts) → (∀ x ∈ funSetsSs ss, G x) → (∀ x ∈ topLets ss, ¬ G x) →
      ∀ s t, Top s → Holds G env s → (propCorr P G).st s t →
      (propCorr P G).sim (execs I n ss s) (execs I n (propSs P muts env ss) t)
  | [], env, seen, _, _, _, _, _ => fun s t _ _ hst => by
    simp only [propSs, execs]; exact sim_ret _ hst
  | st :: ss, env, seen, hf, hok, hm, hg, htop => by
    intro s t hn hh hst
    simp only [propSs, execs]
    have hm1 : ∀ x ∈ setsS st, x ∈ muts := fun x hx => hm x (by simp [setsSs, hx])
    have hg1 : ∀ x ∈ funSetsS st, G x := fun x hx => hg x (by simp [funSetsSs, hx])
    refine sim_bindP (propS_sim h n muts st env seen hf.1 hok hm1 hg1 s t hh hst)
      fun fl s' t' h1 h2 h' => ?_
    cases fl with
    | brk => exact sim_ret _ h'
    | ret v => exact sim_ret _ h'
    | cont =>
      have key : Top s' ∧ Holds G (afterS P muts env st) s' := by
        cases hlet : isLet st with
        | false =>
          have e1 := exec_eff (X := fun x => x ∈ muts) h.eff n st s _ s' hlet hm1 hg1
            (st_funInv hst) h1
          exact ⟨hn.effB e1, afterS_other hlet (hh.effB e1 hok.muts)⟩
        | true =>
          cases st <;> simp [isLet] at hlet
          rename_i x b m e
          simp only [exec, bind_ok_iff, doDefine, Prod.mk.injEq] at h1
          obtain ⟨v, s2, h3, _, rfl⟩ := h1
          have e2 := evalE_eff h.eff _ _ _ _ (st_funInv hst) h3
          have hn2 : Top s2 := hn.effB (EffE.toB (X := fun _ => False) e2)
          have hx : env x = none := by
            by_contra hne
            exact hf.1 (hok.seen x hne)
          have hv : ∀ l, propE P env e = .lit l → v = litVal l := by
            intro l hl
            have := propE_sim h e hst hh
            rw [h3, hl] at this
            have h4 := (this (by intro e' he'; cases he')).1
            simp only [evalE, Except.ok.injEq] at h4
            exact h4
          exact ⟨(define_top hn2 x v).1, (hh.effE e2).defineTop hn2
            (htop x (by simp [topLets, declS])) (afterLet_cases hv hx)⟩
      exact propSs_simTop h n muts ss _ _ hf.2 (hok.after st)
        (fun x hx => hm x (by simp [setsSs, hx])) (fun x hx => hg x (by simp [funSetsSs, hx]))
        (fun x hx => htop x (by simp [topLets, hx])) s' t' key.1 key.2 h'

theorem envOk_none (muts seen : List Sym) : EnvOk muts seen (fun _ => none) :=
  ⟨by simp, by simp⟩

theorem prop_calls (hl : Lawful P nz) (n : Nat) :
    (propCorr P G).calls (checked P nz [] n) (checked P nz [] n) := by
  refine calls_inst ?_ ?_ n
  · rintro n hn b b' rfl
    exact foldE_simC (C := propCorr P G) (bools := []) hl (isChecked_checked n) (fun _ h => h)
      (fun _ => rfl) hn (by simp) b
  · rintro n hn b b' ⟨h1, h2, rfl⟩ s t hfr hst
    exact propSs_sim ⟨hl, isChecked_checked n, hn, callsEff_inst n⟩ n _ b _ [] h1 (envOk_none _ _)
      (fun x hx => hx) (fun x hx => h2 x ((allSetsSs_split b x).2 (.inr hx))) s t (.inr hfr)
      (by intro x l hx; cases hx) hst

/-- Propagating constants in a program whose checked run does not trip. -/
theorem propagate_run (hl : Lawful P nz) {n : Nat} {p : List Stmt} (hf : freshSs [] p)
    (hg : ∀ x ∈ topLets p, x ∉ funSetsSs p) (h : ¬ Tripped (checkedRun P nz [] n p).error) :
    run P n (propagateProgram P p) = run P n p := by
  have hfine : Fine (execs (checked P nz [] n) n p {}) := fine_outcome.2 h
  have h1 := propSs_simTop (G := fun x => x ∈ funSetsSs p) (nz := nz)
    ⟨hl, isChecked_checked n, prop_calls hl n, callsEff_inst n⟩ n (setsSs p) p (fun _ => none) [] hf
    (envOk_none _ _) (fun x hx => hx) (fun x hx => hx) hg {} {}
    ⟨rfl, rfl, fun _ => rfl⟩ (by intro x l hx; cases hx) (st_empty _)
    (by intro e he ht; exact absurd ht (by
          have := hfine
          rcases hr : execs (checked P nz [] n) n p {} with ⟨r, s⟩
          rw [hr] at this he
          subst he
          exact this))
  have h2 : checkedRun P nz [] n p = checkedRun P nz [] n (propagateProgram P p) := outcome_eq h1
  rw [← checkedRun_plain h, h2]
  rw [h2] at h
  rw [checkedRun_plain h]

end

end Verif.Lang
