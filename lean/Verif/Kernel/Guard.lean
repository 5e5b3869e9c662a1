import Verif.Kernel.Infer
/-!
# The termination guard of the main kernel

`/repo/crates/logicaffeine_kernel/src/termination.rs` 21-485: the check that every recursive function calls itself
on smaller arguments only; and `type_checker.rs` 173-293, 325-445 and 778-870: the typing rules for `Match`
(without indices), `Fix` and `MutualFix`, which rest on it.
-/
namespace Verif.Core
open Verif.Level (Universe)

/-- The part of `Context` (`context.rs` 380-515) that knows the inductive types: the registered type of an
inductive, its constructors in the order of registration with their types, the inductive a constructor belongs to,
and the number of parameters, where one was declared. -/
structure Decls where
  ind : String → Option Term
  ctors : String → List (String × Term)
  owner : String → Option String
  declared : String → Option Nat

/-- `GuardContext` (`termination.rs` 22-44).  The sets are lists; only membership is asked. -/
structure GCtx where
  positions : List (String × Nat)
  param : String
  type : String
  smaller : List String
  live : Bool
  shadowed : List String

/-- `extract_inductive_name` (`termination.rs` 168-174; the same function is in `type_checker.rs` 1576-1587). -/
def inductiveName (D : Decls) : Term → Option String
  | .glob n => if (D.ind n).isSome then some n else none
  | .app f _ => inductiveName D f
  | _ => none

/-- The λ-telescope of a term (`termination.rs` 125-130). -/
def telescope : Term → List (String × Term)
  | .lam x a b => (x, a) :: telescope b
  | _ => []

/-- The term under the λ-telescope (`termination.rs` 126-130). -/
def underTelescope : Term → Term
  | .lam _ _ b => underTelescope b
  | t => t

/-- The body past the first `k` λ (`termination.rs` 156-161, for `k = pos + 1`). -/
def peel : Nat → Term → Term
  | 0, t => t
  | k + 1, .lam _ _ b => peel k b
  | k + 1, t => peel k t

/-- The position of the first element with a property (`Iterator::position`). -/
def position {α : Type} (p : α → Bool) : List α → Option Nat
  | [] => none
  | a :: as => if p a then some 0 else (position p as).map (· + 1)

/-- The scrutinee of the innermost match, as a position in the telescope (`termination.rs` 133-139). -/
def scrutinee (chain : List (String × Term)) : Term → Option Nat
  | .mtch (.var d) _ _ => position (fun e => e.1 == d) chain
  | _ => none

/-- Whether the binder at a position has an inductive type (`termination.rs` 144). -/
def inductiveAt (D : Decls) (chain : List (String × Term)) (p : Nat) : Bool :=
  match chain[p]? with
  | some e => (inductiveName D e.2).isSome
  | none => false

/-- The position of the structural parameter (`termination.rs` 143-149). -/
def structPos (D : Decls) (body : Term) : Option Nat :=
  match (scrutinee (telescope body) (underTelescope body)).filter (inductiveAt D (telescope body)) with
  | some p => some p
  | none => position (fun e => (inductiveName D e.2).isSome) (telescope body)

/-- `extract_structural_param` (`termination.rs` 120-163): name, inductive type, position, and the body past it. -/
def structParam (D : Decls) (body : Term) : Option (String × String × Nat × Term) :=
  match structPos D body with
  | none => none
  | some p =>
    match (telescope body)[p]? with
    | none => none
    | some e => (inductiveName D e.2).map fun ty => (e.1, ty, p, peel (p + 1) body)

/-- `enter_binder` (`termination.rs` 184-201). -/
def GCtx.enter (G : GCtx) (x : String) : GCtx :=
  { G with
    smaller := G.smaller.filter (· != x)
    live := if x == G.param then false else G.live
    shadowed := if (G.positions.lookup x).isSome then x :: G.shadowed else G.shadowed }

/-- One constructor binder of a case (`termination.rs` 443-454). -/
def GCtx.mark (G : GCtx) (x : String) : GCtx :=
  { G with
    smaller := x :: G.smaller
    live := if x == G.param then false else G.live
    shadowed := if (G.positions.lookup x).isSome then x :: G.shadowed else G.shadowed }

/-- `count_pi_params` (`termination.rs` 465-470). -/
def countPi : Term → Nat
  | .pi _ _ b => countPi b + 1
  | _ => 0

/-- The head of an application, when it is a variable (`termination.rs` 380-385). -/
def headVar : Term → Option String
  | .app f _ => headVar f
  | .var x => some x
  | _ => none

/-- `verify_structural_arg_smaller` (`termination.rs` 378-400). -/
def GCtx.argSmaller (G : GCtx) (t : Term) : Bool :=
  match headVar t with
  | some x => G.smaller.contains x
  | none => false

/-- The structural position of a name, when it stands for a member of the block (`termination.rs` 221-222). -/
def GCtx.member (G : GCtx) (x : String) : Option Nat :=
  if G.shadowed.contains x then none else G.positions.lookup x

/-- Whether a discriminant is the structural parameter (`termination.rs` 266-272). -/
def GCtx.isParam (G : GCtx) : Term → Bool
  | .var d => G.live && d == G.param
  | _ => false

mutual
/-- `check_guarded` (`termination.rs` 204-351), whether it accepts; which of several errors is reported is not kept.
`args` are the arguments the term is applied to, when it stands at the head of an application: the code collects
them in a loop (211-252).  `n` is the number of constructor binders still to be stripped from a case:
`extract_lambda_params` and the marking (418-454) go through them first. -/
def guarded (D : Decls) (G : GCtx) (n : Nat) (args : List Term) : Term → Bool
  | .app f a => guarded D G 0 (a :: args) f && guarded D G 0 [] a
  | .var x =>
    match G.member x with
    | some p =>
      match args[p]? with
      | some s => G.argSmaller s
      | none => false
    | none => true
  | .mtch d m cs =>
    guarded D G 0 [] m &&
      (if G.isParam d then guardedCases D G ((D.ctors G.type).map fun c => countPi c.2) cs
       else guarded D G 0 [] d && guardedAll D G cs)
  | .lam x a b =>
    match n with
    | 0 => guarded D G 0 [] a && guarded D (G.enter x) 0 [] b
    | k + 1 => guarded D (G.mark x) k [] b
  | .pi x a b => guarded D G 0 [] a && guarded D (G.enter x) 0 [] b
  | .fix x b => guarded D (G.enter x) 0 [] b
  | .mfix ds _ => guardedDefs D (ds.foldl (fun g d => g.enter d.1) G) ds
  | .letE x t v b => guarded D G 0 [] t && guarded D G 0 [] v && guarded D (G.enter x) 0 [] b
  | .sort _ => true
  | .glob _ => true
  | .const _ _ => true
  | .lit _ => true
  | .hole => true
/-- The cases of a match on something else (`termination.rs` 276-278). -/
def guardedAll (D : Decls) (G : GCtx) : List Term → Bool
  | [] => true
  | c :: cs => guarded D G 0 [] c && guardedAll D G cs
/-- `check_match_cases_guarded` (`termination.rs` 403-461); `zip` stops at the shorter list. -/
def guardedCases (D : Decls) (G : GCtx) : List Nat → List Term → Bool
  | _, [] => true
  | [], _ => true
  | n :: ns, c :: cs => guarded D G n [] c && guardedCases D G ns cs
/-- The bodies of a nested block (`termination.rs` 307-316; an empty block, on which the code panics, is accepted). -/
def guardedDefs (D : Decls) (G : GCtx) : List (String × Term) → Bool
  | [] => true
  | (_, b) :: ds => guarded D G 0 [] b && guardedDefs D G ds
end

/-- The guard context a body starts with (`termination.rs` 53-63, 98-105). -/
def GCtx.start (positions : List (String × Nat)) (param type : String) : GCtx :=
  { positions, param, type, smaller := [], live := true, shadowed := [] }

/-- `check_termination` (`termination.rs` 49-67). -/
def checkTermination (D : Decls) (f : String) (body : Term) : Bool :=
  match structParam D body with
  | none => false
  | some (x, ty, p, inner) => guarded D (GCtx.start [(f, p)] x ty) 0 [] inner

/-- The positions of the members of a block; of two members with one name the later stands in the map, so it is put
first here (`termination.rs` 86-93). -/
def blockPositions (D : Decls) : List (String × Term) → Option (List (String × Nat))
  | [] => some []
  | (f, b) :: ds =>
    match structParam D b, blockPositions D ds with
    | some (_, _, p, _), some ps => some (ps ++ [(f, p)])
    | _, _ => none

/-- `check_termination_mutual` (`termination.rs` 79-109). -/
def checkMutual (D : Decls) (ds : List (String × Term)) : Bool :=
  match ds, blockPositions D ds with
  | [], _ => false
  | _, none => false
  | ds, some ps => ds.all fun d =>
    match structParam D d.2 with
    | none => false
    | some (x, ty, _, inner) => guarded D (GCtx.start ps x ty) 0 [] inner

/-! ## The typing rules that rest on the guard -/

/-- `extract_type_args` (`type_checker.rs` 860-871). -/
def typeArgs : Term → List Term
  | .app f a => typeArgs f ++ [a]
  | _ => []

/-- `beta_reduce` (`type_checker.rs` 587-600). -/
def betaHead : Term → Term
  | .app (.lam x _ b) a => substitute b x a
  | t => t

/-- The parameters of a constructor type (`type_checker.rs` 785-796). -/
def piParams : Term → List (String × Term)
  | .pi x a b => (x, a) :: piParams b
  | _ => []

/-- The type of a value parameter of a case: the type parameters replaced by the type arguments, the earlier value
parameters by their new names (`type_checker.rs` 834-842). -/
def fieldType (tps : List (String × Term)) (earlier : List (String × String)) (ty : Term) : Term :=
  betaHead (earlier.foldl (fun t e => substitute t e.1 (.var e.2)) (tps.foldl (fun t e => substitute t e.1 e.2) ty))

/-- The functions over the value parameters (`type_checker.rs` 831-848). -/
def wrapFields (tps : List (String × Term)) (result : Term) : List (String × String) → List (String × String × Term) → Term
  | _, [] => result
  | earlier, (o, n, ty) :: rest => .pi n (fieldType tps earlier ty) (wrapFields tps result (earlier ++ [(o, n)]) rest)

/-- `compute_case_type` (`type_checker.rs` 778-851). -/
def caseType (motive : Term) (ctor : String) (ctorType discType : Term) : Term :=
  let targs := typeArgs discType
  let all := piParams ctorType
  let values := ((all.drop targs.length).zipIdx).map fun e => (e.1.1, "__arg" ++ toString e.2, e.1.2)
  let applied := values.foldl (fun t e => .app t (.var e.2.1)) (targs.foldl .app (.glob ctor))
  wrapFields (((all.take targs.length).map Prod.fst).zip targs) (betaHead (.app motive applied)) [] values

/-- `inductive_num_params` (`context.rs` 387-406). -/
def Decls.numParams (D : Decls) (i : String) : Nat :=
  (D.declared i).getD (((D.ind i).map countPi).getD 0)

/-- The check of the cases (`type_checker.rs` 262-266). -/
def checkCases (R : Rest) (F : Nat) (c : Ctx) (motive disc : Term) : List (String × Term) → List Term → Except KErr Unit
  | k :: ks, t :: ts => do
    checkType R F c t (caseType motive k.1 k.2 disc)
    checkCases R F c motive disc ks ts
  | _, _ => .ok ()

/-- The motive as a function (`type_checker.rs` 214-249). -/
def effectiveMotive (R : Rest) (F : Nat) (c : Ctx) (motive disc : Term) : Term → Except KErr Term
  | .pi _ a b =>
    if typesEqual a disc then
      match inferType R F c b with
      | .ok (.sort _) => .ok motive
      | _ => .error .badMotive
    else .error .badMotive
  | .sort _ => .ok (.lam "_" disc motive)
  | _ => .error .badMotive

/-- The rule for `Match` (`type_checker.rs` 173-293).  A family with indices (197-208) and a proposition as the
inductive type (the restriction at 276-290) are outside the model. -/
def inferMatch (D : Decls) (R : Rest) (F : Nat) (c : Ctx) (d m : Term) (cs : List Term) : Except KErr Term := do
  let disc := R.norm c (← inferType R F c d)
  match inductiveName D disc with
  | none => .error .notInductive
  | some i =>
    if (typeArgs disc).length > min (D.numParams i) (typeArgs disc).length then .error .outside
    else do
      let motive ← effectiveMotive R F c m disc (← inferType R F c m)
      if cs.length ≠ (D.ctors i).length then .error .wrongCases
      else do
        checkCases R F c motive disc (D.ctors i) cs
        match R.norm c (← inferType R F c disc) with
        | .sort .prop => .error .outside
        | _ => .ok (betaHead (.app motive d))

/-- `infer_fix_type_structurally` (`type_checker.rs` 388-445); a family with indices is outside the model. -/
def inferFixType (D : Decls) (R : Rest) (F : Nat) : Ctx → Term → Except KErr Term
  | c, .lam x a b => do
    let _ ← asSort (← inferType R F c a)
    let t ← inferFixType D R F (c.extend x a) b
    .ok (.pi x a t)
  | c, .mtch d m cs =>
    match (inferType R F c m).toOption.map (R.norm c) with
    | some (.sort _) => .ok (R.norm c m)
    | _ => .ok (R.norm c (.app m d))
  | c, t => inferType R F c t

/-- The types of the members of a block (`type_checker.rs` 360-363). -/
def inferFixTypes (D : Decls) (R : Rest) (F : Nat) (c : Ctx) : List (String × Term) → Except KErr (List (String × Term))
  | [] => .ok []
  | (f, b) :: ds => do
    let t ← inferFixType D R F c b
    let ts ← inferFixTypes D R F c ds
    .ok ((f, t) :: ts)

/-- The bodies of a block under all its names (`type_checker.rs` 374-376). -/
def inferBodies (R : Rest) (F : Nat) (c : Ctx) : List (String × Term) → Except KErr Unit
  | [] => .ok ()
  | (_, b) :: ds => do
    let _ ← inferType R F c b
    inferBodies R F c ds

/-- The rules for `Match`, `Fix` and `MutualFix` (`type_checker.rs` 173-293, 325-379).  They call `infer_type` again;
`k` bounds how deep such terms may be nested and `F` the depth of the rest. -/
def others (D : Decls) (norm : Ctx → Term → Term) (slow : Ctx → Term → Term → Bool) (F : Nat) :
    Nat → Ctx → Term → Except KErr Term
  | 0, _, _ => .error .outside
  | k + 1, c, .mtch d m cs => inferMatch D ⟨norm, slow, others D norm slow F k⟩ F c d m cs
  | k + 1, c, .fix f b => do
    let t ← inferFixType D ⟨norm, slow, others D norm slow F k⟩ F c b
    if checkTermination D f b then do
      let _ ← inferType ⟨norm, slow, others D norm slow F k⟩ F (c.extend f t) b
      .ok t
    else .error .loops
  | k + 1, c, .mfix ds i => do
    let ts ← inferFixTypes D ⟨norm, slow, others D norm slow F k⟩ F c ds
    if checkMutual D ds then do
      inferBodies ⟨norm, slow, others D norm slow F k⟩ F (ts.foldl (fun c e => c.extend e.1 e.2) c) ds
      orUnbound (ts[i]?.map Prod.snd)
    else .error .loops
  | _ + 1, _, _ => .error .outside

/-- The inference of the kernel with these rules: `infer_type` (`type_checker.rs` 51-385). -/
def kernelType (D : Decls) (norm : Ctx → Term → Term) (slow : Ctx → Term → Term → Bool) (F k : Nat) (c : Ctx) (t : Term) :
    Except KErr Term := inferType ⟨norm, slow, others D norm slow F k⟩ F c t

end Verif.Core
