import Verif.Lang.Interp
import Mathlib.Data.List.Forall2

/-!
# Comparing two runs step by step

Two states agree when their environments and outputs are equal and the function and closure bodies
they hold are related.  A step of one run simulates a step of the other when, unless the first
ends in an excluded error, both end with the same value or error in states that agree.
-/
namespace Verif.Lang

/-- How the bodies held by two states correspond, and which errors of the first run release the
second from any obligation. -/
structure Corr where
  body : List Stmt → List Stmt → Prop
  clo : Expr → Expr → Prop
  bad : Err → Prop

/-- Related functions. -/
def Corr.fn (C : Corr) (f g : Fun) : Prop := f.params = g.params ∧ C.body f.body g.body

/-- Related closures. -/
def Corr.cl (C : Corr) (c d : Clo) : Prop :=
  c.params = d.params ∧ c.captured = d.captured ∧ C.clo c.body d.body

/-- States that agree. -/
structure Corr.st (C : Corr) (s t : State) : Prop where
  env : s.env = t.env
  out : s.out = t.out
  funs : ∀ f, (s.funs f = none ∧ t.funs f = none) ∨
    ∃ a b, s.funs f = some a ∧ t.funs f = some b ∧ C.fn a b
  clos : List.Forall₂ C.cl s.clos t.clos

/-- The first result is not an excluded error. -/
def Corr.fine {α : Type} (C : Corr) (r : Res α) : Prop := ∀ e, r.1 = .error e → ¬ C.bad e

/-- Results that agree, unless the first is an excluded error. -/
def Corr.sim {α : Type} (C : Corr) (r r' : Res α) : Prop :=
  C.fine r → r.1 = r'.1 ∧ C.st r.2 r'.2

/-- Steps that take states that agree to results that agree. -/
def Corr.simF {α : Type} (C : Corr) (f g : State → Res α) : Prop :=
  ∀ s t, C.st s t → C.sim (f s) (g t)

section
variable {C : Corr}

theorem sim_bind {α β : Type} {r r' : Res α} {k k' : α → State → Res β} (h : C.sim r r')
    (hk : ∀ a, C.simF (k a) (k' a)) : C.sim (r.bind k) (r'.bind k') := by
  intro hf
  rcases r with ⟨r, s⟩
  rcases r' with ⟨r', s'⟩
  cases r with
  | error e =>
    have := h (by intro e' he'; exact hf e' (by cases he'; rfl))
    obtain ⟨h1, h2⟩ := this
    simp only at h1
    subst h1
    exact ⟨rfl, h2⟩
  | ok a =>
    obtain ⟨h1, h2⟩ := h (by intro e' he'; cases he')
    simp only at h1
    subst h1
    exact hk a s s' h2 hf

theorem sim_ret {α : Type} (a : Except Err α) {s t : State} (h : C.st s t) :
    C.sim (a, s) (a, t) := fun _ => ⟨rfl, h⟩

theorem st_env {s t : State} (h : C.st s t) (f : Env → Env) : C.st (s.withEnv f) (t.withEnv f) :=
  ⟨by simp [State.withEnv, h.env], h.out, h.funs, h.clos⟩

theorem simF_lift {α : Type} (r : Except Err α) : C.simF (lift r) (lift r) :=
  fun _ _ h => sim_ret r h

theorem simF_bind {α β : Type} {f g : State → Res α} {k k' : α → State → Res β} (h : C.simF f g)
    (hk : ∀ a, C.simF (k a) (k' a)) : C.simF (fun s => (f s).bind k) (fun s => (g s).bind k') :=
  fun s t hst => sim_bind (h s t hst) hk

theorem simF_boolOut {P : Prims} {f g : State → Res Value} (h : C.simF f g) :
    C.simF (fun s => boolOut P (f s)) (fun s => boolOut P (g s)) :=
  simF_bind h fun _ => simF_lift _

theorem simF_evBin {I : Inst} (op : BinOp) {fa fb ga gb : State → Res Value} (ha : C.simF fa ga)
    (hb : C.simF fb gb) : C.simF (evBin I op fa fb) (evBin I op ga gb) := by
  intro s t hst
  unfold evBin
  split
  · refine sim_bind (ha s t hst) fun a s' t' h' => ?_
    split
    · exact simF_boolOut hb s' t' h'
    · exact sim_ret _ h'
  · refine sim_bind (ha s t hst) fun a s' t' h' => ?_
    split
    · exact sim_ret _ h'
    · exact simF_boolOut hb s' t' h'
  · exact sim_bind (ha s t hst) fun a s' t' h' =>
      sim_bind (hb s' t' h') fun b => simF_lift _

theorem simF_evVar {I : Inst} (x : Sym) : C.simF (evVar I x) (evVar I x) := by
  intro s t hst
  unfold evVar
  rw [← hst.env]
  split
  · split
    · exact sim_ret _ hst
    · exact sim_ret _ hst
  · exact sim_ret _ hst

/-- Related targets of a call. -/
inductive Corr.tgt (C : Corr) : Target → Target → Prop where
  | fn {a b : Fun} : C.fn a b → C.tgt (.fn a) (.fn b)
  | clo (i : Nat) : C.tgt (.clo i) (.clo i)

/-- Calls of related targets agree. -/
def Corr.calls (C : Corr) (I J : Inst) : Prop :=
  ∀ x y vs, C.tgt x y → C.simF (I.invoke x vs) (J.invoke y vs)

theorem simF_evCall {I J : Inst} (hP : I.P = J.P) (hc : C.calls I J) (f : Sym) (n : Nat)
    {fa ga : State → Res (List Value)} (h : C.simF fa ga) :
    C.simF (evCall I f n fa) (evCall J f n ga) := by
  intro s t hst
  unfold evCall
  rw [← hP]
  cases I.P.builtin f with
  | some g => exact sim_bind (h s t hst) fun vs => simF_lift _
  | none =>
    simp only
    rcases hst.funs f with ⟨h1, h2⟩ | ⟨a, b, h1, h2, hab⟩
    · simp only [h1, h2]
      have : closureOf s f = closureOf t f := by unfold closureOf; rw [hst.env]
      rw [← this]
      cases closureOf s f with
      | none => exact sim_ret _ hst
      | some i => exact sim_bind (h s t hst) fun vs => hc _ _ vs (.clo i)
    · simp only [h1, h2, ← hab.1]
      split
      · exact sim_bind (h s t hst) fun vs => hc _ _ vs (.fn hab)
      · exact sim_ret _ hst

theorem simF_evCallv {I J : Inst} (hc : C.calls I J) (v : Value)
    {fa ga : State → Res (List Value)} (h : C.simF fa ga) :
    C.simF (evCallv I v fa) (evCallv J v ga) := by
  intro s t hst
  unfold evCallv
  split
  · exact sim_bind (h s t hst) fun vs => hc _ _ vs (.clo _)
  · exact sim_ret _ hst

theorem simF_evClosure (ps : List Sym) {b b' : Expr} (h : C.clo b b') :
    C.simF (evClosure ps b) (evClosure ps b') := by
  intro s t hst _
  refine ⟨by simp [evClosure, hst.clos.length_eq], ⟨hst.env, hst.out, hst.funs, ?_⟩⟩
  refine List.rel_append hst.clos (.cons ⟨rfl, ?_, h⟩ .nil)
  simp only [hst.env]

theorem simF_doDefine (x : Sym) (v : Value) : C.simF (doDefine x v) (doDefine x v) :=
  fun _ _ h => sim_ret _ (st_env h _)

theorem simF_doAssign (x : Sym) (v : Value) : C.simF (doAssign x v) (doAssign x v) := by
  intro s t h
  unfold doAssign
  rw [← h.env]
  split
  · exact sim_ret _ ⟨rfl, h.out, h.funs, h.clos⟩
  · exact sim_ret _ h

theorem simF_doPush (x : Sym) (v : Value) : C.simF (doPush x v) (doPush x v) := by
  intro s t h
  unfold doPush
  rw [← h.env]
  split
  · exact simF_doAssign _ _ s t h
  · exact sim_ret _ h
  · exact sim_ret _ h

theorem simF_doShow {P : Prims} (v : Value) : C.simF (doShow P v) (doShow P v) := by
  intro s t h
  exact sim_ret _ ⟨h.env, by simp [h.out], h.funs, h.clos⟩

theorem simF_doAssert {P : Prims} (v : Value) : C.simF (doAssert P v) (doAssert P v) := by
  intro s t h
  unfold doAssert
  split <;> exact sim_ret _ h

theorem simF_inScope {f g : State → Res Flow} (h : C.simF f g) :
    C.simF (inScope f) (inScope g) := by
  intro s t hst
  exact sim_bind (h _ _ (st_env hst _)) fun fl s' t' h' => sim_ret _ (st_env h' _)

theorem simF_loopNext {k k' : State → Res Flow} (h : C.simF k k') (fl : Flow) :
    C.simF (loopNext k fl) (loopNext k' fl) := by
  intro s t hst
  cases fl
  · exact h s t hst
  · exact sim_ret _ hst
  · exact sim_ret _ hst

theorem simF_whileLoop {P : Prims} {fc gc : State → Res Value} {fb gb : State → Res Flow}
    (hc : C.simF fc gc) (hb : C.simF fb gb) :
    ∀ n, C.simF (whileLoop P fc fb n) (whileLoop P gc gb n)
  | 0 => fun _ _ h => sim_ret _ h
  | n + 1 => by
    intro s t hst
    refine sim_bind (hc s t hst) fun v s' t' h' => ?_
    split
    · exact sim_bind (hb s' t' h') fun fl => simF_loopNext (simF_whileLoop hc hb n) fl
    · exact sim_ret _ h'

theorem simF_eachItem (x : Sym) {fb gb : State → Res Flow} (hb : C.simF fb gb) :
    ∀ vs, C.simF (eachItem x fb vs) (eachItem x gb vs)
  | [] => fun _ _ h => sim_ret _ h
  | v :: vs => by
    intro s t hst
    exact sim_bind (hb _ _ (st_env hst _)) fun fl => simF_loopNext (simF_eachItem x hb vs) fl

theorem simF_repeatLoop {P : Prims} (x : Sym) (v : Value) {fb gb : State → Res Flow}
    (hb : C.simF fb gb) : C.simF (repeatLoop P x v fb) (repeatLoop P x v gb) := by
  intro s t hst
  exact sim_bind (sim_ret _ hst) fun vs => simF_inScope (simF_eachItem x hb vs)

theorem simF_inFrame {α : Type} (setup : Env → Env) {f g : State → Res α} (h : C.simF f g) :
    C.simF (inFrame setup f) (inFrame setup g) := by
  intro s t hst
  exact sim_bind (h _ _ (st_env hst _)) fun fl s' t' h' => sim_ret _ (st_env h' _)

theorem st_defineFun {s t : State} (h : C.st s t) (f : Sym) {a b : Fun} (hab : C.fn a b) :
    C.st (defineFun f a s) (defineFun f b t) := by
  refine ⟨h.env, h.out, fun g => ?_, h.clos⟩
  simp only [defineFun]
  split
  · exact .inr ⟨a, b, rfl, rfl, hab⟩
  · exact h.funs g

/-- Related closures found at the same index. -/
theorem st_clo {s t : State} (h : C.st s t) (i : Nat) :
    (s.clos[i]? = none ∧ t.clos[i]? = none) ∨
      ∃ a b, s.clos[i]? = some a ∧ t.clos[i]? = some b ∧ C.cl a b := by
  have := h.clos
  generalize s.clos = l1 at this ⊢
  generalize t.clos = l2 at this ⊢
  revert i
  induction this with
  | nil => intro i; left; simp
  | cons hab _ ih =>
    intro i
    cases i with
    | zero => right; exact ⟨_, _, rfl, rfl, hab⟩
    | succ i => simpa using ih i

/-- A call of a closure, given that evaluating related bodies agrees. -/
theorem simF_invokeClo {I J : Inst} (h : ∀ b b', C.clo b b' → C.simF (evalE I b) (evalE J b'))
    (i : Nat) (vs : List Value) : C.simF (invokeClo I i vs) (invokeClo J i vs) := by
  intro s t hst
  unfold invokeClo
  rcases st_clo hst i with ⟨h1, h2⟩ | ⟨a, b, h1, h2, h3, h4, h5⟩
  · simp only [h1, h2]; exact sim_ret _ hst
  · simp only [h1, h2, ← h3, ← h4]
    split
    · exact simF_inFrame _ (h _ _ h5) s t hst
    · exact sim_ret _ hst

theorem bindParams_frames : ∀ (ps : List Sym) (vs : List Value) (e : Env), e.frames ≠ [] →
    (bindParams ps vs e).frames = e.frames ∧ (bindParams ps vs e).globals = e.globals ∧
    (bindParams ps vs e).mainBlock = e.mainBlock
  | [], vs, e, _ => by simp [bindParams]
  | p :: ps, [], e, _ => by simp [bindParams]
  | p :: ps, v :: vs, e, h => by
    have hd : (e.define p v).frames = e.frames ∧ (e.define p v).globals = e.globals ∧
        (e.define p v).mainBlock = e.mainBlock := by
      have : e.frames.isEmpty = false := by
        cases hf : e.frames with
        | nil => exact absurd hf h
        | cons _ _ => rfl
      simp [Env.define, this]
    have := bindParams_frames ps vs (e.define p v) (by rw [hd.1]; exact h)
    simp only [bindParams]
    rw [this.1, this.2.1, this.2.2]
    exact hd

/-- A call of a function, given that running related bodies agrees. -/
theorem simF_invokeFun {I J : Inst} {n : Nat}
    (h : ∀ b b', C.body b b' → ∀ s t, s.env.frames ≠ [] → C.st s t →
      C.sim (execs I n b s) (execs J n b' t)) {a b : Fun} (hab : C.fn a b)
    (vs : List Value) : C.simF (invokeFun I n a vs) (invokeFun J n b vs) := by
  intro s t hst
  unfold invokeFun inFrame
  rw [← hab.1]
  refine sim_bind ?_ fun fl s' t' h' => sim_ret _ (st_env h' _)
  refine sim_bind (h _ _ hab.2 _ _ ?_ (st_env hst _)) fun fl _ _ h'' => sim_ret _ h''
  simp only [State.withEnv]
  rw [(bindParams_frames _ _ _ (by simp [Env.pushFrame])).1]
  simp [Env.pushFrame]

/-- Calls agree at every fuel, given that bodies do. -/
theorem calls_inst {P : Prims} {ap ap' : BinOp → Value → Value → Except Err Value}
    {rd rd' : Sym → Value → Bool}
    (he : ∀ n, C.calls (inst P ap rd n) (inst P ap' rd' n) →
      ∀ b b', C.clo b b' → C.simF (evalE (inst P ap rd n) b) (evalE (inst P ap' rd' n) b'))
    (hs : ∀ n, C.calls (inst P ap rd n) (inst P ap' rd' n) →
      ∀ b b', C.body b b' → ∀ s t, s.env.frames ≠ [] → C.st s t →
        C.sim (execs (inst P ap rd n) n b s) (execs (inst P ap' rd' n) n b' t)) :
    ∀ n, C.calls (inst P ap rd n) (inst P ap' rd' n)
  | 0 => fun _ _ _ _ _ _ h => sim_ret _ h
  | n + 1 => by
    have ih := calls_inst he hs n
    intro x y vs hxy
    cases hxy with
    | fn hab => exact simF_invokeFun (hs n ih) hab vs
    | clo i => exact simF_invokeClo (he n ih) i vs

end

end Verif.Lang
