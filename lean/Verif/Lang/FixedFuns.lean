import Verif.Lang.FoldSim
import Verif.Lang.CallSpec

/-!
# Comparing two runs whose functions are fixed

Two programs whose functions are all defined first: while the rest runs, the tables of functions
stay the same.  A run of one simulates a run of the other when, unless the first ends in an
excluded error, both end with the same result in states that differ in the table only.
-/
namespace Verif.Lang.Fixed

/-- The same state with another table of functions. -/
def over (F : Sym → Option Fun) (s : State) : State := { s with funs := F }

/-- The same result and output and, when it is not an error, the same state up to the table. -/
def Same (F F' : Sym → Option Fun) {α : Type} (r r' : Res α) : Prop :=
  r'.1 = r.1 ∧ r'.2.out = r.2.out ∧ ((∃ a, r.1 = .ok a) → r'.2 = over F' r.2 ∧ r.2.funs = F)

theorem same_mk {F F' : Sym → Option Fun} {α : Type} {r : Except Err α} {s : State}
    (h : s.funs = F) : Same F F' (r, s) (r, over F' s) := ⟨rfl, rfl, fun _ => ⟨rfl, h⟩⟩

/-- The result is not an excluded error. -/
def Good (bad : Err → Prop) {α : Type} (r : Res α) : Prop := ∀ e, r.1 = .error e → ¬ bad e

/-- Steps that agree. -/
def Sim (bad : Err → Prop) (F F' : Sym → Option Fun) {α : Type} (f g : State → Res α) : Prop :=
  ∀ s, s.funs = F → Good bad (f s) → Same F F' (f s) (g (over F' s))

section
variable {bad : Err → Prop} {F F' : Sym → Option Fun} {α β : Type}

theorem sim_ret (r : Except Err α) : Sim bad F F' (fun s => (r, s)) (fun s => (r, s)) :=
  fun _ h _ => same_mk h

theorem sim_env (r : Except Err α) (k : Env → Env) :
    Sim bad F F' (fun s => (r, s.withEnv k)) (fun s => (r, s.withEnv k)) :=
  fun _ h _ => same_mk h

/-- A bind from results that agree. -/
theorem bind_sim {r r' : Res α} {k k' : α → State → Res β}
    (h : Good bad r → Same F F' r r') (hk : ∀ a, Sim bad F F' (k a) (k' a))
    (hg : Good bad (r.bind k)) : Same F F' (r.bind k) (r'.bind k') := by
  rcases r with ⟨r, s⟩
  rcases r' with ⟨r', s'⟩
  cases r with
  | error e =>
    have hg' : Good bad ((.error e, s) : Res α) := by
      intro e' he'; cases he'; exact hg e rfl
    obtain ⟨h1, h2, _⟩ := h hg'
    simp only at h1 h2
    subst h1
    exact ⟨rfl, h2, by simp [Res.bind]⟩
  | ok a =>
    obtain ⟨h1, _, h3⟩ := h (by intro e' he'; cases he')
    obtain ⟨h4, h5⟩ := h3 ⟨a, rfl⟩
    simp only at h1 h4 h5
    subst h1
    subst h4
    exact hk a s h5 hg

theorem sim_bind {f g : State → Res α} {k k' : α → State → Res β} (h : Sim bad F F' f g)
    (hk : ∀ a, Sim bad F F' (k a) (k' a)) :
    Sim bad F F' (fun s => (f s).bind k) (fun s => (g s).bind k') :=
  fun s hs hg => bind_sim (h s hs) hk hg

/-- Related functions: the same parameters and related bodies. -/
def FunRel (R : List Stmt → List Stmt → Prop) (a b : Fun) : Prop :=
  a.params = b.params ∧ R a.body b.body

/-- Related tables of functions. -/
def TableRel (R : List Stmt → List Stmt → Prop) (F F' : Sym → Option Fun) : Prop :=
  ∀ f, (F f = none ∧ F' f = none) ∨ ∃ a b, F f = some a ∧ F' f = some b ∧ FunRel R a b

/-- Calls agree. -/
structure Calls (bad : Err → Prop) (R : List Stmt → List Stmt → Prop) (F F' : Sym → Option Fun)
    (I : Inst) : Prop where
  fn : ∀ a b vs, FunRel R a b → Sim bad F F' (I.invoke (.fn a) vs) (I.invoke (.fn b) vs)
  clo : ∀ i vs, Sim bad F F' (I.invoke (.clo i) vs) (I.invoke (.clo i) vs)

theorem sim_evBin {I : Inst} (op : BinOp) {fa fb ga gb : State → Res Value}
    (ha : Sim bad F F' fa ga) (hb : Sim bad F F' fb gb) :
    Sim bad F F' (evBin I op fa fb) (evBin I op ga gb) := by
  have hbool : Sim bad F F' (fun s => boolOut I.P (fb s)) (fun s => boolOut I.P (gb s)) :=
    sim_bind hb fun _ => sim_ret _
  unfold evBin
  split
  · refine sim_bind ha fun a s hs hg => ?_
    by_cases ht : truthy I.P a = true
    · simp only [ht, if_true] at hg ⊢; exact hbool s hs hg
    · simp only [ht] at hg ⊢; exact sim_ret _ s hs hg
  · refine sim_bind ha fun a s hs hg => ?_
    by_cases ht : truthy I.P a = true
    · simp only [ht, if_true] at hg ⊢; exact sim_ret _ s hs hg
    · simp only [ht] at hg ⊢; exact hbool s hs hg
  · exact sim_bind ha fun a => sim_bind hb fun b => sim_ret _

theorem sim_evVar {I : Inst} (x : Sym) : Sim bad F F' (evVar I x) (evVar I x) := by
  intro s hs hg
  unfold evVar
  simp only [over]
  split
  · split <;> exact same_mk hs
  · exact same_mk hs

theorem sim_evCall {R : List Stmt → List Stmt → Prop} {I : Inst} (hc : Calls bad R F F' I)
    (ht : TableRel R F F') (f : Sym) (n : Nat)
    {fa ga : State → Res (List Value)} (h : Sim bad F F' fa ga) :
    Sim bad F F' (evCall I f n fa) (evCall I f n ga) := by
  intro s hs hg
  unfold evCall at hg ⊢
  cases hb : I.P.builtin f with
  | some g =>
    simp only [hb] at hg ⊢
    exact sim_bind h (fun vs => sim_ret _) s hs hg
  | none =>
    simp only [hb] at hg ⊢
    rcases ht f with ⟨h1, h2⟩ | ⟨a, b, h1, h2, hab⟩
    · have e1 : s.funs f = none := by rw [hs]; exact h1
      have e2 : (over F' s).funs f = none := h2
      rw [e1] at hg ⊢
      rw [e2]
      simp only at hg ⊢
      have e3 : closureOf (over F' s) f = closureOf s f := rfl
      rw [e3]
      cases hcl : closureOf s f with
      | none => exact same_mk hs
      | some i =>
        simp only [hcl] at hg ⊢
        exact sim_bind h (fun vs => hc.clo i vs) s hs hg
    · have e1 : s.funs f = some a := by rw [hs]; exact h1
      have e2 : (over F' s).funs f = some b := h2
      rw [e1] at hg ⊢
      rw [e2]
      simp only [← hab.1] at hg ⊢
      by_cases hn : n = a.params.length
      · simp only [hn, if_true] at hg ⊢
        exact sim_bind h (fun vs => hc.fn a b vs hab) s hs hg
      · simp only [hn, if_false] at hg ⊢
        exact same_mk hs

theorem sim_evCallv {R : List Stmt → List Stmt → Prop} {I : Inst} (hc : Calls bad R F F' I)
    (v : Value) {fa ga : State → Res (List Value)} (h : Sim bad F F' fa ga) :
    Sim bad F F' (evCallv I v fa) (evCallv I v ga) := by
  unfold evCallv
  split
  · exact sim_bind h fun vs => hc.clo _ vs
  · exact sim_ret _

theorem sim_evClosure (ps : List Sym) (b : Expr) :
    Sim bad F F' (evClosure ps b) (evClosure ps b) :=
  fun _ h _ => same_mk h

theorem sim_doAssign (x : Sym) (v : Value) : Sim bad F F' (doAssign x v) (doAssign x v) := by
  intro s hs hg
  unfold doAssign
  simp only [over]
  split <;> exact same_mk hs

theorem sim_doPush (x : Sym) (v : Value) : Sim bad F F' (doPush x v) (doPush x v) := by
  intro s hs hg
  unfold doPush at hg ⊢
  have e : (over F' s).env = s.env := rfl
  rw [e]
  split at hg
  · exact sim_doAssign _ _ s hs hg
  · exact same_mk hs
  · exact same_mk hs

theorem sim_doShow {P : Prims} (v : Value) : Sim bad F F' (doShow P v) (doShow P v) :=
  fun _ h _ => same_mk h

theorem sim_doAssert {P : Prims} (v : Value) : Sim bad F F' (doAssert P v) (doAssert P v) := by
  intro s hs hg
  unfold doAssert
  split <;> exact same_mk hs

theorem sim_after {f g : State → Res α} (h : Sim bad F F' f g) (k k' : Env → Env) :
    Sim bad F F' (fun s => (f (s.withEnv k)).bind fun a s' => (.ok a, s'.withEnv k'))
      (fun s => (g (s.withEnv k)).bind fun a s' => (.ok a, s'.withEnv k')) :=
  fun s hs hg => bind_sim (h (s.withEnv k) hs) (fun _ => sim_env _ _) hg

theorem sim_inScope {f g : State → Res Flow} (h : Sim bad F F' f g) :
    Sim bad F F' (inScope f) (inScope g) := sim_after h _ _

theorem sim_loopNext {k k' : State → Res Flow} (h : Sim bad F F' k k') (fl : Flow) :
    Sim bad F F' (loopNext k fl) (loopNext k' fl) := by
  cases fl
  · exact h
  · exact sim_ret _
  · exact sim_ret _

theorem sim_whileLoop {P : Prims} {fc gc : State → Res Value} {fb gb : State → Res Flow}
    (hc : Sim bad F F' fc gc) (hb : Sim bad F F' fb gb) :
    ∀ n, Sim bad F F' (whileLoop P fc fb n) (whileLoop P gc gb n)
  | 0 => sim_ret _
  | n + 1 => by
    refine sim_bind hc fun v s hs hg => ?_
    by_cases ht : truthy P v = true
    · simp only [ht, if_true] at hg ⊢
      exact sim_bind hb (fun fl => sim_loopNext (sim_whileLoop hc hb n) fl) s hs hg
    · simp only [ht] at hg ⊢
      exact same_mk hs

theorem sim_eachItem (x : Sym) {fb gb : State → Res Flow} (hb : Sim bad F F' fb gb) :
    ∀ vs, Sim bad F F' (eachItem x fb vs) (eachItem x gb vs)
  | [] => sim_ret _
  | v :: vs => fun s hs hg =>
    bind_sim (hb (s.withEnv (·.define x v)) hs) (fun fl => sim_loopNext (sim_eachItem x hb vs) fl) hg

theorem sim_repeatLoop {P : Prims} (x : Sym) (v : Value) {fb gb : State → Res Flow}
    (hb : Sim bad F F' fb gb) : Sim bad F F' (repeatLoop P x v fb) (repeatLoop P x v gb) :=
  sim_bind (sim_ret _) fun vs => sim_inScope (sim_eachItem x hb vs)

end

/-! ## Expressions and statements that agree part by part -/

/-- What one pass may replace a call by, once its arguments are replaced. -/
abbrev Rule := Sym → List Expr → Expr → Prop

mutual
/-- The second expression is the first with calls replaced by the rule. -/
inductive RelE (Q : Rule) : Expr → Expr → Prop where
  | lit (l) : RelE Q (.lit l) (.lit l)
  | var (x) : RelE Q (.var x) (.var x)
  | bin (op) {a b a' b'} : RelE Q a a' → RelE Q b b' → RelE Q (.bin op a b) (.bin op a' b')
  | not {a a'} : RelE Q a a' → RelE Q (.not a) (.not a')
  | call (f) {as as'} : RelEs Q as as' → RelE Q (.call f as) (.call f as')
  | callv {c c' as as'} : RelE Q c c' → RelEs Q as as' → RelE Q (.callv c as) (.callv c' as')
  | list {as as'} : RelEs Q as as' → RelE Q (.list as) (.list as')
  | index {c i c' i'} : RelE Q c c' → RelE Q i i' → RelE Q (.index c i) (.index c' i')
  | length {c c'} : RelE Q c c' → RelE Q (.length c) (.length c')
  | closure (ps b) : RelE Q (.closure ps b) (.closure ps b)
  | rule {f as as' e} : RelEs Q as as' → Q f as' e → RelE Q (.call f as) e

/-- The same for lists of expressions. -/
inductive RelEs (Q : Rule) : List Expr → List Expr → Prop where
  | nil : RelEs Q [] []
  | cons {e e' es es'} : RelE Q e e' → RelEs Q es es' → RelEs Q (e :: es) (e' :: es')
end

mutual
theorem RelE.refl {Q : Rule} : ∀ e, RelE Q e e
  | .lit l => .lit l
  | .var x => .var x
  | .bin op a b => .bin op (RelE.refl a) (RelE.refl b)
  | .not a => .not (RelE.refl a)
  | .call f as => .call f (RelEs.refl as)
  | .callv c as => .callv (RelE.refl c) (RelEs.refl as)
  | .list as => .list (RelEs.refl as)
  | .index c i => .index (RelE.refl c) (RelE.refl i)
  | .length c => .length (RelE.refl c)
  | .closure ps b => .closure ps b

theorem RelEs.refl {Q : Rule} : ∀ es, RelEs Q es es
  | [] => .nil
  | e :: es => .cons (RelE.refl e) (RelEs.refl es)
end

mutual
/-- The second statement is the first with calls replaced by the rule; neither defines
functions. -/
inductive RelS (Q : Rule) : Stmt → Stmt → Prop where
  | letS (x b m) {e e'} : RelE Q e e' → RelS Q (.letS x b m e) (.letS x b m e')
  | set (x) {e e'} : RelE Q e e' → RelS Q (.set x e) (.set x e')
  | callS (f) {as as'} : RelEs Q as as' → RelS Q (.callS f as) (.callS f as')
  | ifS {c c' t t' e e'} : RelE Q c c' → RelSs Q t t' → RelSs Q e e' →
      RelS Q (.ifS c t e) (.ifS c' t' e')
  | whileS {c c' b b'} : RelE Q c c' → RelSs Q b b' → RelS Q (.whileS c b) (.whileS c' b')
  | repeatS (x) {e e' b b'} : RelE Q e e' → RelSs Q b b' →
      RelS Q (.repeatS x e b) (.repeatS x e' b')
  | retN : RelS Q (.ret none) (.ret none)
  | ret {e e'} : RelE Q e e' → RelS Q (.ret (some e)) (.ret (some e'))
  | brk : RelS Q .brk .brk
  | showS {e e'} : RelE Q e e' → RelS Q (.showS e) (.showS e')
  | assertS {e e'} : RelE Q e e' → RelS Q (.assertS e) (.assertS e')
  | push (x) {e e'} : RelE Q e e' → RelS Q (.push x e) (.push x e')

/-- The same for blocks. -/
inductive RelSs (Q : Rule) : List Stmt → List Stmt → Prop where
  | nil : RelSs Q [] []
  | cons {s s' ss ss'} : RelS Q s s' → RelSs Q ss ss' → RelSs Q (s :: ss) (s' :: ss')
end

section
variable {bad : Err → Prop} {F F' : Sym → Option Fun} {Q : Rule} {P : Prims}

/-- The replacement of a call agrees with the call. -/
def RuleOk (bad : Err → Prop) (F F' : Sym → Option Fun) (Q : Rule) (P : Prims) : Prop :=
  ∀ n f as as' e, RelEs Q as as' → Q f as' e →
    Sim bad F F' (evalEs (plain P n) as) (evalEs (plain P n) as') →
    Sim bad F F' (evalE (plain P n) (.call f as)) (evalE (plain P n) e)

theorem relEs_length : ∀ {es es' : List Expr}, RelEs Q es es' → es.length = es'.length
  | _, _, .nil => rfl
  | _, _, .cons _ h => by simp [relEs_length h]

mutual
theorem relE_sim (hq : RuleOk bad F F' Q P) (ht : TableRel (RelSs Q) F F') {n : Nat}
    (hc : Calls bad (RelSs Q) F F' (plain P n)) :
    ∀ {e e' : Expr}, RelE Q e e' → Sim bad F F' (evalE (plain P n) e) (evalE (plain P n) e')
  | _, _, .lit l => fun s hs hg => by simp only [evalE] at hg ⊢; exact same_mk hs
  | _, _, .var x => fun s hs hg => by simp only [evalE] at hg ⊢; exact sim_evVar x s hs hg
  | _, _, .bin op ha hb => fun s hs hg => by
    simp only [evalE] at hg ⊢
    exact sim_evBin op (relE_sim hq ht hc ha) (relE_sim hq ht hc hb) s hs hg
  | _, _, .not ha => fun s hs hg => by
    simp only [evalE] at hg ⊢
    exact sim_bind (relE_sim hq ht hc ha) (fun _ => sim_ret _) s hs hg
  | _, _, .call f h => fun s hs hg => by
    simp only [evalE] at hg ⊢
    rw [← relEs_length h]
    exact sim_evCall hc ht f _ (relEs_sim hq ht hc h) s hs hg
  | _, _, .callv h1 h2 => fun s hs hg => by
    simp only [evalE] at hg ⊢
    exact sim_bind (relE_sim hq ht hc h1) (fun v => sim_evCallv hc v (relEs_sim hq ht hc h2)) s hs hg
  | _, _, .list h => fun s hs hg => by
    simp only [evalE] at hg ⊢
    exact sim_bind (relEs_sim hq ht hc h) (fun _ => sim_ret _) s hs hg
  | _, _, .index h1 h2 => fun s hs hg => by
    simp only [evalE] at hg ⊢
    exact sim_bind (relE_sim hq ht hc h1) (fun _ => sim_bind (relE_sim hq ht hc h2) fun _ =>
      sim_ret _) s hs hg
  | _, _, .length h => fun s hs hg => by
    simp only [evalE] at hg ⊢
    exact sim_bind (relE_sim hq ht hc h) (fun _ => sim_ret _) s hs hg
  | _, _, .closure ps b => fun s hs hg => by
    simp only [evalE] at hg ⊢
    exact sim_evClosure ps b s hs hg
  | _, _, .rule h hr => hq n _ _ _ _ h hr (relEs_sim hq ht hc h)

theorem relEs_sim (hq : RuleOk bad F F' Q P) (ht : TableRel (RelSs Q) F F') {n : Nat}
    (hc : Calls bad (RelSs Q) F F' (plain P n)) :
    ∀ {es es' : List Expr}, RelEs Q es es' →
      Sim bad F F' (evalEs (plain P n) es) (evalEs (plain P n) es')
  | _, _, .nil => fun s hs hg => by simp only [evalEs] at hg ⊢; exact same_mk hs
  | _, _, .cons h1 h2 => fun s hs hg => by
    simp only [evalEs] at hg ⊢
    exact sim_bind (relE_sim hq ht hc h1) (fun _ => sim_bind (relEs_sim hq ht hc h2) fun _ =>
      sim_ret _) s hs hg
end

mutual
theorem relS_sim (hq : RuleOk bad F F' Q P) (ht : TableRel (RelSs Q) F F') {n : Nat} (m : Nat)
    (hc : Calls bad (RelSs Q) F F' (plain P n)) :
    ∀ {st st' : Stmt}, RelS Q st st' → Sim bad F F' (exec (plain P n) m st) (exec (plain P n) m st')
  | _, _, .letS x b mu h => fun s hs hg => by
    simp only [exec] at hg ⊢
    exact sim_bind (relE_sim hq ht hc h) (fun v => sim_env _ _) s hs hg
  | _, _, .set x h => fun s hs hg => by
    simp only [exec] at hg ⊢
    exact sim_bind (relE_sim hq ht hc h) (fun v => sim_doAssign x v) s hs hg
  | _, _, .callS f h => fun s hs hg => by
    simp only [exec] at hg ⊢
    exact sim_bind (relE_sim hq ht hc (.call f h)) (fun v => sim_ret _) s hs hg
  | _, _, .ifS h1 h2 h3 => fun s hs hg => by
    simp only [exec] at hg ⊢
    refine sim_bind (relE_sim hq ht hc h1) (fun v s hs hg => ?_) s hs hg
    by_cases htr : truthy (plain P n).P v = true
    · simp only [htr, if_true] at hg ⊢
      exact sim_inScope (relSs_sim hq ht m hc h2) s hs hg
    · simp only [htr] at hg ⊢
      exact sim_inScope (relSs_sim hq ht m hc h3) s hs hg
  | _, _, .whileS h1 h2 => fun s hs hg => by
    simp only [exec] at hg ⊢
    exact sim_whileLoop (relE_sim hq ht hc h1) (sim_inScope (relSs_sim hq ht m hc h2)) m s hs hg
  | _, _, .repeatS x h1 h2 => fun s hs hg => by
    simp only [exec] at hg ⊢
    exact sim_bind (relE_sim hq ht hc h1) (fun v => sim_repeatLoop x v
      (sim_inScope (relSs_sim hq ht m hc h2))) s hs hg
  | _, _, .retN => fun s hs hg => by simp only [exec] at hg ⊢; exact same_mk hs
  | _, _, .ret h => fun s hs hg => by
    simp only [exec] at hg ⊢
    exact sim_bind (relE_sim hq ht hc h) (fun v => sim_ret _) s hs hg
  | _, _, .brk => fun s hs hg => by simp only [exec] at hg ⊢; exact same_mk hs
  | _, _, .showS h => fun s hs hg => by
    simp only [exec] at hg ⊢
    exact sim_bind (relE_sim hq ht hc h) (fun v => sim_doShow v) s hs hg
  | _, _, .assertS h => fun s hs hg => by
    simp only [exec] at hg ⊢
    exact sim_bind (relE_sim hq ht hc h) (fun v => sim_doAssert v) s hs hg
  | _, _, .push x h => fun s hs hg => by
    simp only [exec] at hg ⊢
    exact sim_bind (relE_sim hq ht hc h) (fun v => sim_doPush x v) s hs hg

theorem relSs_sim (hq : RuleOk bad F F' Q P) (ht : TableRel (RelSs Q) F F') {n : Nat} (m : Nat)
    (hc : Calls bad (RelSs Q) F F' (plain P n)) :
    ∀ {ss ss' : List Stmt}, RelSs Q ss ss' →
      Sim bad F F' (execs (plain P n) m ss) (execs (plain P n) m ss')
  | _, _, .nil => fun s hs hg => by simp only [execs] at hg ⊢; exact same_mk hs
  | _, _, .cons h1 h2 => fun s hs hg => by
    simp only [execs] at hg ⊢
    refine sim_bind (relS_sim hq ht m hc h1) (fun fl => ?_) s hs hg
    cases fl with
    | cont => exact relSs_sim hq ht m hc h2
    | brk => exact sim_ret _
    | ret v => exact sim_ret _
end

/-- Calls agree at every fuel. -/
theorem calls_plain (hq : RuleOk bad F F' Q P) (ht : TableRel (RelSs Q) F F') :
    ∀ n, Calls bad (RelSs Q) F F' (plain P n)
  | 0 => ⟨fun _ _ _ _ => sim_ret _, fun _ _ => sim_ret _⟩
  | n + 1 => by
    have ih := calls_plain hq ht n
    refine ⟨fun a b vs hab => ?_, fun i vs => ?_⟩
    · show Sim bad F F' (invokeFun (plain P n) n a vs) (invokeFun (plain P n) n b vs)
      unfold invokeFun inFrame
      rw [← hab.1]
      exact sim_after (sim_bind (relSs_sim hq ht n ih hab.2) fun fl => sim_ret _) _ _
    · show Sim bad F F' (invokeClo (plain P n) i vs) (invokeClo (plain P n) i vs)
      intro s hs hg
      unfold invokeClo at hg ⊢
      have e : (over F' s).clos = s.clos := rfl
      rw [e]
      cases hcl : s.clos[i]? with
      | none => exact same_mk hs
      | some c =>
        simp only [hcl] at hg ⊢
        by_cases hv : vs.length = c.params.length
        · simp only [hv, if_true] at hg ⊢
          exact sim_after (relE_sim hq ht ih (RelE.refl c.body)) _ _ s hs hg
        · simp only [hv, if_false] at hg ⊢
          exact same_mk hs

end

/-! ## Calls with literals and names as arguments -/

/-- A literal or a name. -/
def atom : Expr → Bool
  | .lit _ => true
  | .var _ => true
  | _ => false

theorem atoms_eval {P : Prims} (n : Nat) (F' : Sym → Option Fun) (s : State) : ∀ (as : List Expr),
    as.all atom = true → ∃ r, evalEs (plain P n) as s = (r, s) ∧
      evalEs (plain P n) as (over F' s) = (r, over F' s) ∧
      ∀ e, r = .error e → ∃ x, Expr.var x ∈ as ∧ e = .unbound x
  | [], _ => ⟨.ok [], by simp [evalEs]⟩
  | a :: as, h => by
    simp only [List.all_cons, Bool.and_eq_true] at h
    obtain ⟨r, h1, h2, h3⟩ := atoms_eval (P := P) n F' s as h.2
    have ha : ∃ r', evalE (plain P n) a s = (r', s) ∧
        evalE (plain P n) a (over F' s) = (r', over F' s) ∧
        ∀ e, r' = .error e → ∃ x, a = .var x ∧ e = .unbound x := by
      cases a with
      | lit l => exact ⟨.ok (litVal l), by simp [evalE]⟩
      | var x =>
        simp only [evalE, evVar, over]
        cases hx : s.env.lookup x with
        | none => exact ⟨_, rfl, rfl, fun e he => ⟨x, rfl, by simpa using he.symm⟩⟩
        | some v => exact ⟨.ok v, rfl, rfl, by simp⟩
      | _ => simp [atom] at h
    obtain ⟨r', g1, g2, g3⟩ := ha
    cases r' with
    | error e =>
      refine ⟨.error e, by simp [evalEs, g1, Res.bind], by simp [evalEs, g2, Res.bind], ?_⟩
      rintro e' he'
      obtain ⟨x, hx, he⟩ := g3 e rfl
      cases he'
      exact ⟨x, by simp [hx], he⟩
    | ok v =>
      cases r with
      | error e =>
        refine ⟨.error e, by simp [evalEs, g1, h1, Res.bind], by simp [evalEs, g2, h2, Res.bind], ?_⟩
        rintro e' he'
        cases he'
        obtain ⟨x, hx, he⟩ := h3 e rfl
        exact ⟨x, by simp [hx], he⟩
      | ok vs =>
        exact ⟨.ok (v :: vs), by simp [evalEs, g1, h1, Res.bind], by simp [evalEs, g2, h2, Res.bind],
          by simp⟩

/-- A rule for calls with atomic arguments of a function of the table. -/
def RuleSound (bad : Err → Prop) (F F' : Sym → Option Fun) (Q : Rule) (P : Prims) : Prop :=
  ∀ f as e, Q f as e → as.all atom = true ∧ (∀ x, Expr.var x ∈ as → bad (.unbound x)) ∧
    ∃ fd, F f = some fd ∧ P.builtin f = none ∧ as.length = fd.params.length ∧
      ∀ n s vs, s.funs = F → evalEs (plain P n) as s = (.ok vs, s) →
        Good bad ((plain P n).invoke (.fn fd) vs s) →
        Same F F' ((plain P n).invoke (.fn fd) vs s) (evalE (plain P n) e (over F' s))

theorem ruleOk {bad : Err → Prop} {F F' : Sym → Option Fun} {Q : Rule} {P : Prims}
    (h : RuleSound bad F F' Q P) : RuleOk bad F F' Q P := by
  intro n f as as' e hrel hq hsim s hs hg
  obtain ⟨hat, hub, fd, hF, hb, hlen, hsound⟩ := h f as' e hq
  have hlen' : as.length = fd.params.length := by rw [relEs_length hrel]; exact hlen
  have hP : (plain P n).P = P := rfl
  simp only [evalE, evCall, hP, hb, hs, hF, hlen', if_true] at hg ⊢
  obtain ⟨r, h1, h2, h3⟩ := atoms_eval (P := P) n F' s as' hat
  rcases hr : evalEs (plain P n) as s with ⟨r', s'⟩
  rw [hr] at hg
  have hgood : Good bad (evalEs (plain P n) as s) := by
    rw [hr]
    intro e' he'
    cases r' with
    | error e'' => exact hg e' (by simpa [Res.bind] using he')
    | ok _ => cases he'
  obtain ⟨k1, _, k2⟩ := hsim s hs hgood
  rw [h2, hr] at k1 k2
  simp only at k1 k2
  subst k1
  cases r with
  | error e' =>
    obtain ⟨x, hx, he⟩ := h3 e' rfl
    subst he
    exact absurd (hub x hx) (hg _ rfl)
  | ok vs =>
    obtain ⟨k4, k5⟩ := k2 ⟨vs, rfl⟩
    have hss : s' = s := by
      have e1 : over F s' = s' := by rw [← k5]; rfl
      have e2 : over F s = s := by rw [← hs]; rfl
      have e3 : over F (over F' s) = over F (over F' s') := by rw [k4]
      rw [← e1, ← e2]
      exact e3.symm
    subst hss
    simp only [Res.bind] at hg ⊢
    exact hsound n s' vs hs h1 hg

/-! ## Programs -/

open CallSpec

/-- The function a definition defines. -/
def toFun (d : Def) : Fun := { params := d.params.map Prod.fst, body := d.body }

/-- The table after definitions with distinct names. -/
def table (defs : List Def) (f : Sym) : Option Fun := (defs.find? (fun d => d.name == f)).map toFun

theorem exec_defs {I : Inst} {n : Nat} (main : List Stmt) : ∀ (defs : List Def) (s : State),
    (defs.map Def.name).Nodup →
    execs I n (program defs main) s =
      execs I n main (over (fun f => (table defs f).or (s.funs f)) s)
  | [], s, _ => by simp [program, table, over]
  | d :: ds, s, h => by
    simp only [List.map_cons, List.nodup_cons] at h
    have := exec_defs (I := I) (n := n) main ds (defineFun d.name (toFun d) s) h.2
    simp only [program, List.map_cons, List.cons_append, execs, Def.stmt, exec, Res.bind] at this ⊢
    rw [show ({ params := d.params.map Prod.fst, body := d.body } : Fun) = toFun d from rfl, this]
    congr 1
    simp only [over, defineFun]
    congr 1
    funext f
    simp only [table, List.find?_cons]
    by_cases hf : f = d.name
    · subst hf
      have hnone : ds.find? (fun x => x.name == d.name) = none := by
        rw [List.find?_eq_none]
        intro x hx he
        exact h.1 (List.mem_map.2 ⟨x, hx, by simpa using he⟩)
      simp [hnone]
    · have : (d.name == f) = false := by simpa using fun h => hf h.symm
      simp [this, hf]

theorem run_program {P : Prims} {n : Nat} {defs : List Def} (main : List Stmt)
    (h : (defs.map Def.name).Nodup) :
    run P n (program defs main) = outcome (execs (plain P n) n main (over (table defs) {})) := by
  unfold run
  rw [exec_defs main defs {} h]
  congr 3
  funext f
  simp

theorem table_mem {defs : List Def} (h : (defs.map Def.name).Nodup) {d : Def} (hd : d ∈ defs) :
    table defs d.name = some (toFun d) := by
  induction defs with
  | nil => simp at hd
  | cons a ds ih =>
    simp only [List.map_cons, List.nodup_cons] at h
    simp only [table, List.find?_cons]
    rcases List.mem_cons.1 hd with rfl | hd
    · simp
    · have : (a.name == d.name) = false := by
        simp only [beq_eq_false_iff_ne, ne_eq]
        intro he
        exact h.1 (he ▸ List.mem_map_of_mem hd)
      simp only [this]
      exact ih h.2 hd

theorem table_some {defs : List Def} {f : Sym} {fd : Fun} (h : table defs f = some fd) :
    ∃ d ∈ defs, d.name = f ∧ fd = toFun d := by
  simp only [table, Option.map_eq_some_iff] at h
  obtain ⟨d, h1, h2⟩ := h
  exact ⟨d, List.mem_of_find?_eq_some h1, by simpa using List.find?_some h1, h2.symm⟩

/-- The definitions with their bodies changed. -/
def mapBody (T : List Stmt → List Stmt) (d : Def) : Def := { d with body := T d.body }

theorem table_rel {R : List Stmt → List Stmt → Prop} {T : List Stmt → List Stmt} :
    ∀ {defs : List Def}, (∀ d ∈ defs, R d.body (T d.body)) →
      TableRel R (table defs) (table (defs.map (mapBody T)))
  | [], _ => fun f => .inl ⟨rfl, rfl⟩
  | d :: ds, h => fun f => by
    simp only [table, List.map_cons, List.find?_cons, mapBody]
    by_cases hf : (d.name == f) = true
    · simp only [hf]
      exact .inr ⟨_, _, rfl, rfl, rfl, h d (by simp)⟩
    · simp only [hf]
      exact table_rel (fun x hx => h x (by simp [hx])) f

/-- A pass that replaces calls by a sound rule leaves what a run shows as it is. -/
theorem run_same {bad : Err → Prop} {P : Prims} {Q : Rule} {T : List Stmt → List Stmt}
    {defs : List Def} {main : List Stmt} (hd : (defs.map Def.name).Nodup)
    (hb : ∀ d ∈ defs, RelSs Q d.body (T d.body)) (hm : RelSs Q main (T main))
    (hq : RuleSound bad (table defs) (table (defs.map (mapBody T))) Q P) (n : Nat)
    (hg : ∀ e, (run P n (program defs main)).error = some e → ¬ bad e) :
    run P n (program (defs.map (mapBody T)) (T main)) = run P n (program defs main) := by
  have hd' : ((defs.map (mapBody T)).map Def.name).Nodup := by
    rw [List.map_map]; exact hd
  rw [run_program main hd] at hg ⊢
  rw [run_program _ hd']
  have ht := table_rel (T := T) (R := RelSs Q) hb
  have := relSs_sim (ruleOk hq) ht n (calls_plain (ruleOk hq) ht n) hm (over (table defs) {}) rfl
    (by
      intro e he
      refine hg e ?_
      simp [outcome, he])
  have e : over (table (defs.map (mapBody T))) (over (table defs) {}) =
    over (table (defs.map (mapBody T))) {} := rfl
  rw [e] at this
  unfold outcome
  rw [this.1, this.2.1]

end Verif.Lang.Fixed
