import Verif.Kernel.GuardLemmas
/-!
# C113 — Recursive functions the kernel accepts

A recursive function that the kernel accepts calls itself only on parts of what it was called on.
-/
namespace Verif.Props
open Verif.Core
open Verif.Level (Universe)

/-! ## The part that holds -/

/-- **C113.**  Take a closed term in which the kernel's guard accepts every fixpoint (and without mutual blocks), over
inductive types whose constructors hand all their arguments to the cases of a match (no type parameters).  In every
run of the term, every recursive call is on an argument of the constructor on which the calling activation was
called.  What is missing: types with parameters (`C113_false_fails`), constructors that hold functions (the run is
stuck on them), and mutual blocks. -/
theorem C113_calls_partial (D : Decls) (noParams : ∀ c, dropped D c = 0) (n : Nat) (t : Term) (v : Val) (calls : Calls)
    (accepted : allGuarded D t = true) (runs : run D n [] t = some (v, calls)) :
    ∀ call ∈ calls, ∃ c fields, call.2 = .con c fields ∧ call.1 ∈ fields :=
  run_calls noParams accepted runs

/-- The natural numbers and the booleans. -/
def natDecls : Decls where
  ind n := if n = "Nat" ∨ n = "Bool" then some (.sort (.type 0)) else none
  ctors n :=
    if n = "Nat" then [("Zero", .glob "Nat"), ("Succ", .pi "_" (.glob "Nat") (.glob "Nat"))]
    else if n = "Bool" then [("true", .glob "Bool"), ("false", .glob "Bool")] else []
  owner c := if c = "Zero" ∨ c = "Succ" then some "Nat" else if c = "true" ∨ c = "false" then some "Bool" else none
  declared _ := none

/-- Addition, by recursion on the first number. -/
def plusTerm : Term :=
  .fix "plus" (.lam "n" (.glob "Nat") (.lam "m" (.glob "Nat") (.mtch (.var "n") (.glob "Nat")
    [.var "m", .lam "k" (.glob "Nat") (.app (.glob "Succ") (.app (.app (.var "plus") (.var "k")) (.var "m")))])))

def oneTerm : Term := .app (.glob "Succ") (.glob "Zero")
def twoTerm : Term := .app (.glob "Succ") oneTerm
def zeroVal : Val := .con "Zero" []
def oneVal : Val := .con "Succ" [zeroVal]
def twoVal : Val := .con "Succ" [oneVal]

theorem natDecls_params : ∀ c, dropped natDecls c = 0 := by
  intro c
  simp only [dropped, natDecls]
  by_cases h1 : c = "Zero"
  · subst h1; decide
  · by_cases h2 : c = "Succ"
    · subst h2; decide
    · by_cases h3 : c = "true"
      · subst h3; decide
      · by_cases h4 : c = "false"
        · subst h4; decide
        · simp [h1, h2, h3, h4]

/-- The hypotheses are met: two plus one is three, with two recursive calls, on one and on zero. -/
example : (∀ c, dropped natDecls c = 0) ∧ allGuarded natDecls (.app (.app plusTerm twoTerm) oneTerm) = true ∧
    run natDecls 30 [] (.app (.app plusTerm twoTerm) oneTerm) =
      some (.con "Succ" [twoVal], [(oneVal, twoVal), (zeroVal, oneVal)]) := by
  refine ⟨natDecls_params, by decide +kernel, ?_⟩
  rfl

/-- The size of a value of constructors. -/
def valSize : Val → Nat
  | .con _ as => 1 + sizes as
  | .clo _ _ _ _ => 0
  | .recur _ _ _ _ _ => 0
  | .inert => 0
where sizes : List Val → Nat
  | [] => 0
  | a :: as => valSize a + sizes as

theorem valSize_mem {a : Val} : ∀ {as : List Val}, a ∈ as → valSize a ≤ valSize.sizes as := by
  intro as
  induction as with
  | nil => intro h; cases h
  | cons b bs ih =>
    intro h
    simp only [valSize.sizes]
    rcases List.mem_cons.1 h with rfl | h
    · omega
    · have := ih h
      omega

/-- Each value is one that the call on the value before it was recorded to call. -/
def CalledInTurn (calls : Calls) : Val → List Val → Prop
  | _, [] => True
  | caller, callee :: rest => (callee, caller) ∈ calls ∧ CalledInTurn calls callee rest

/-- **C113.**  So a chain of recursive calls, each made by the one before, is no longer than the size of the value the
first was called on. -/
theorem C113_chain_partial (D : Decls) (noParams : ∀ c, dropped D c = 0) (n : Nat) (t : Term) (v : Val) (calls : Calls)
    (accepted : allGuarded D t = true) (runs : run D n [] t = some (v, calls)) (first : Val) (chain : List Val)
    (linked : CalledInTurn calls first chain) :
    chain.length ≤ valSize first := by
  induction chain generalizing first with
  | nil => exact Nat.zero_le _
  | cons u us ih =>
    simp only [CalledInTurn] at linked
    obtain ⟨c, fields, h1, h2⟩ := C113_calls_partial D noParams n t v calls accepted runs _ linked.1
    simp only at h1 h2
    have h3 := ih u linked.2
    have h4 := valSize_mem h2
    subst h1
    simp only [valSize, List.length_cons]
    omega

example : CalledInTurn [(oneVal, twoVal), (zeroVal, oneVal)] twoVal [oneVal, zeroVal] := by
  simp [CalledInTurn]

/-! ## What is refused -/

/-- **C113.**  A function that calls itself on anything not headed by a variable, or on its own parameter, outside any
match, is refused, whatever the types are. -/
theorem C113_refused (D : Decls) (f x i : String) (a : Term) (outside : headVar a = none ∨ headVar a = some x) :
    checkTermination D f (.lam x (.glob i) (.app (.var f) a)) = false := by
  simp only [checkTermination]
  split
  · rfl
  · rename_i y ty p inner h
    simp only [structParam, structPos, scrutinee, underTelescope, telescope, Option.filter, position, inductiveName] at h
    by_cases hi : (D.ind i).isSome = true
    · simp [hi, peel] at h
      obtain ⟨_, _, _, _, rfl, rfl⟩ := h
      simp only [guarded, GCtx.start, GCtx.member, GCtx.argSmaller]
      rcases outside with h | h <;> simp [h, List.lookup]
    · simp [hi] at h

example : headVar (.app (.glob "Succ") (.var "n")) = none ∧ headVar (.var "n") = some "n" := by decide

/-- **C113.**  So is a function that hands itself on without calling it. -/
theorem C113_escape_refused (D : Decls) (f x i : String) (g : Term) :
    checkTermination D f (.lam x (.glob i) (.app g (.var f))) = false := by
  simp only [checkTermination]
  split
  · rfl
  · rename_i y ty p inner h
    simp only [structParam, structPos, scrutinee, underTelescope, telescope, Option.filter, position, inductiveName] at h
    by_cases hi : (D.ind i).isSome = true
    · simp [hi, peel] at h
      obtain ⟨_, _, _, _, rfl, rfl⟩ := h
      simp [guarded, GCtx.start, GCtx.member]
    · simp [hi] at h

/-! ## Where it fails -/

/-- What the standard prelude declares (`prelude.rs` 533-560, 605-649, 730): natural numbers, lists over a type, and
the empty proposition. -/
def listDecls : Decls where
  ind n :=
    if n = "Nat" then some (.sort (.type 0))
    else if n = "TList" then some (.pi "A" (.sort (.type 0)) (.sort (.type 0)))
    else if n = "False" then some (.sort .prop) else none
  ctors n :=
    if n = "Nat" then [("Zero", .glob "Nat"), ("Succ", .pi "_" (.glob "Nat") (.glob "Nat"))]
    else if n = "TList" then
      [("TNil", .pi "A" (.sort (.type 0)) (.app (.glob "TList") (.var "A"))),
       ("TCons", .pi "A" (.sort (.type 0)) (.pi "_" (.var "A") (.pi "_" (.app (.glob "TList") (.var "A"))
          (.app (.glob "TList") (.var "A")))))]
    else []
  owner c := if c = "Zero" ∨ c = "Succ" then some "Nat" else if c = "TNil" ∨ c = "TCons" then some "TList" else none
  declared _ := none

/-- No local variables; the global names are the declared types and constructors, with their types. -/
def listCtx : Ctx where
  locals _ := none
  globals n := match listDecls.ind n with
    | some t => some t
    | none => (listDecls.owner n).bind fun i => (listDecls.ctors i).lookup n

def numList : Term := .app (.glob "TList") (.glob "Nat")
def emptyList : Term := .app (.glob "TNil") (.glob "Nat")
/-- From a list of numbers, a proof of the false. -/
def toFalse : Term := .pi "y" numList (.glob "False")
def selfCall : Term := .app (.app (.var "f") (.var "y")) (.var "y")
def loopBody : Term :=
  .lam "l" numList (.mtch (.var "l") toFalse
    [.lam "y" numList selfCall, .lam "h" (.glob "Nat") (.lam "t" numList (.lam "y" numList selfCall))])
/-- `(fix f. λl. match l return (TList Nat → False) with TNil ⇒ λy. f y y | TCons h t ⇒ λy. f y y) nil nil`. -/
def falseProof : Term := .app (.app (.fix "f" loopBody) emptyList) emptyList

private theorem okB {α β : Type} (a : α) (f : α → Except KErr β) : (Except.ok a >>= f) = f a := rfl

/-- **C113, the flaw.**  The kernel gives a closed term the type `False`, the proposition without a proof.  The guard
strips from each case as many λ as the constructor has arguments, its type parameter among them, while the case does
not bind the parameter: so one more λ, that of the result of the case, counts as binding a part.  It holds for every
normaliser that leaves the four types alone that are in normal form already, and every comparison. -/
theorem C113_false_fails (norm : Ctx → Term → Term) (slow : Ctx → Term → Term → Bool)
    (normal : ∀ c t, t = numList ∨ t = toFalse ∨ t = .sort .prop ∨ t = .sort (.type 0) → norm c t = t) :
    kernelType listDecls norm slow 10 3 listCtx falseProof = .ok (.glob "False") := by
  have n1 : ∀ c, norm c numList = numList := fun c => normal c _ (.inl rfl)
  have n2 : ∀ c, norm c toFalse = toFalse := fun c => normal c _ (.inr (.inl rfl))
  have n3 : ∀ c, norm c (.sort .prop) = .sort .prop := fun c => normal c _ (.inr (.inr (.inl rfl)))
  have n4 : ∀ c, norm c (.sort (.type 0)) = .sort (.type 0) := fun c => normal c _ (.inr (.inr (.inr rfl)))
  have hc : checkTermination listDecls "f" loopBody = true := by decide +kernel
  have e0 : (Universe.type 0).equiv (Universe.type 0) = true := by decide +kernel
  have e1 : (Universe.type 0).mkIMax .prop = .prop := by decide +kernel
  have g1 : listCtx.globals "TList" = some (.pi "A" (.sort (.type 0)) (.sort (.type 0))) := by simp [listCtx, listDecls]
  have g2 : listCtx.globals "Nat" = some (.sort (.type 0)) := by simp [listCtx, listDecls]
  have g3 : listCtx.globals "False" = some (.sort .prop) := by simp [listCtx, listDecls]
  have g4 : listCtx.globals "TNil" = some (.pi "A" (.sort (.type 0)) (.app (.glob "TList") (.var "A"))) := by simp [listCtx, listDecls]
  have g5 : listCtx.locals = fun _ => none := rfl
  simp only [numList, toFalse] at n1 n2
  simp [kernelType, falseProof, inferType, others, hc]
  simp [loopBody, toFalse, numList, emptyList, selfCall, inferFixType, inferMatch, inferType, others, effectiveMotive, okB, asSort, orUnbound, Ctx.extend, exposePi,
    checkType, compareTypes, isSubtype, typesEqual, substitute, occursFree, substAvoid, height, freeVars,
    freeVarsIn, e0, e1, g1, g2, g3, g4, g5, listDecls, n1, n2, n3, n4, inductiveName, typeArgs, Decls.numParams, countPi, checkCases, caseType, piParams, wrapFields, fieldType, betaHead, Except.toOption]

example : ∀ (_ : Ctx) (t : Term), t = numList ∨ t = toFalse ∨ t = .sort .prop ∨ t = .sort (.type 0) → (fun _ t => t : Ctx → Term → Term) listCtx t = t :=
  fun _ _ _ => rfl

private def nilVal : Val := .con "TNil" [.inert]
private def loopEnv : ValEnv := [("l", nilVal), ("f", .recur (some nilVal) [] "f" loopBody [])]

private theorem enter_loop (n : Nat) (p : Option Val) (r : Val × Calls)
    (h : callVal listDecls n (.recur p [] "f" loopBody []) nilVal = some r) :
    r.1 = .clo loopEnv "y" numList selfCall := by
  have hs : structParam listDecls loopBody = some ("l", "TList", 0, .mtch (.var "l") toFalse
      [.lam "y" numList selfCall, .lam "h" (.glob "Nat") (.lam "t" numList (.lam "y" numList selfCall))]) := by
    simp [structParam, structPos, loopBody, telescope, underTelescope, scrutinee, position, inductiveAt, inductiveName,
      numList, listDecls, peel, Option.filter]
  have ha : arity listDecls "TNil" = some 1 := by simp [arity, listDecls, countPi]
  have ht : ofType listDecls "TList" nilVal = true := by simp [ofType, nilVal, ha]; simp [listDecls]
  have hd : isData listDecls nilVal = true := by simp [isData, isDataAll, nilVal, ha]
  have hi : ctorIndex listDecls "TNil" = some 0 := by simp [ctorIndex, listDecls, position]
  have hp : dropped listDecls "TNil" = 1 := by simp [dropped, listDecls, countTypeParams]
  rcases n with _ | n
  · cases h
  · have hb : bindParams [("f", .recur (some nilVal) [] "f" loopBody [])] loopBody [nilVal] = some (loopEnv,
        .mtch (.var "l") toFalse
          [.lam "y" numList selfCall, .lam "h" (.glob "Nat") (.lam "t" numList (.lam "y" numList selfCall))]) := rfl
    simp only [callVal, hs, Option.bind_some, List.length_nil, Nat.lt_irrefl, if_false, ht, hd, Bool.and_self, if_true,
      List.nil_append, hb, Option.map_eq_some_iff] at h
    obtain ⟨q, hq, rfl⟩ := h
    rcases n with _ | n
    · cases hq
    · rcases n with _ | n
      · simp [run] at hq
      · simp only [run, loopEnv, look, if_true, Option.map_some, Option.bind_some] at hq
        simp [nilVal, ha, hi, hp] at hq
        subst hq
        rfl

private theorem self_none (n : Nat) : run listDecls n (("y", nilVal) :: loopEnv) selfCall = none := by
  induction n using Nat.strongRecOn with
  | _ n ih =>
    rcases n with _ | n
    · rfl
    · cases hr : run listDecls (n + 1) (("y", nilVal) :: loopEnv) selfCall with
      | none => rfl
      | some r =>
        exfalso
        simp only [selfCall, run, Option.bind_eq_some_iff, Option.map_eq_some_iff] at hr
        obtain ⟨g, hg, s, hs, q, hq, _⟩ := hr
        rcases n with _ | n
        · cases hs
        · simp only [run, Option.bind_eq_some_iff, Option.map_eq_some_iff] at hg hs
          obtain ⟨g', hg', s', hs', q', hq', rfl⟩ := hg
          rcases n with _ | n
          · cases hs'
          · simp [run, look, loopEnv] at hs hs' hg'
            subst hs hs' hg'
            have := enter_loop _ _ _ hq'
            simp only [this, callVal] at hq
            rw [ih (n + 1) (by omega)] at hq
            cases hq

/-- **C113, the flaw.**  The guard accepts that term, and it has no value: no run of it, however long, ends. -/
theorem C113_endless_fails : allGuarded listDecls falseProof = true ∧ ∀ n, run listDecls n [] falseProof = none := by
  refine ⟨by decide +kernel, ?_⟩
  intro n
  cases hr : run listDecls n [] falseProof with
  | none => rfl
  | some r =>
    exfalso
    rcases n with _ | n
    · cases hr
    · simp only [falseProof, run, Option.bind_eq_some_iff, Option.map_eq_some_iff] at hr
      obtain ⟨g, hg, s, hs, q, hq, _⟩ := hr
      have hnil : ∀ n s, run listDecls n [] emptyList = some s → s.1 = nilVal := by
        intro n s h
        rcases n with _ | n
        · cases h
        · rcases n with _ | n
          · simp [emptyList, run] at h
          · have ha : arity listDecls "TNil" = some 1 := by simp [arity, listDecls, countPi]
            have ho : (listDecls.owner "TNil").isSome = true := by simp [listDecls]
            have ho' : (listDecls.owner "Nat").isSome = false := by simp [listDecls]
            simp [emptyList, run, ho, ho', callVal, ha, isData] at h
            subst h
            rfl
      have h2 := hnil _ _ hs
      rcases n with _ | n
      · cases hs
      · simp only [run, Option.bind_eq_some_iff, Option.map_eq_some_iff] at hg
        obtain ⟨g', hg', s', hs', q', hq', rfl⟩ := hg
        have h3 := hnil _ _ hs'
        rcases n with _ | n
        · cases hg'
        · simp only [run, Option.some.injEq] at hg'
          subst hg'
          rw [h3] at hq'
          have h4 := enter_loop _ _ _ hq'
          simp only [h4, h2, callVal] at hq
          rw [self_none] at hq
          cases hq

end Verif.Props
