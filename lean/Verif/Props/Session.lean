import Verif.Kernel.Session
import Verif.Kernel.TermLemmas
/-!
# C115: what the interface takes as proved

An inductive type may occur only strictly positively in the fields of its constructors; a definition has the type it is
recorded with; and a session cannot come to a proof of `False`.
-/
namespace Verif.Props
open Verif.Core
open Verif.Level (Universe)

/-! ## Strict positivity -/

/-- `s` is a part of a term, or the term itself. -/
inductive Inside (s : Term) : Term → Prop
  | here : Inside s s
  | piDom {x a b} : Inside s a → Inside s (.pi x a b)
  | piCod {x a b} : Inside s b → Inside s (.pi x a b)
  | lamDom {x a b} : Inside s a → Inside s (.lam x a b)
  | lamBody {x a b} : Inside s b → Inside s (.lam x a b)
  | fn {f a} : Inside s f → Inside s (.app f a)
  | arg {f a} : Inside s a → Inside s (.app f a)
  | disc {d m cs} : Inside s d → Inside s (.mtch d m cs)
  | motive {d m cs} : Inside s m → Inside s (.mtch d m cs)
  | case {d m cs c} : c ∈ cs → Inside s c → Inside s (.mtch d m cs)
  | fixBody {x b} : Inside s b → Inside s (.fix x b)
  | member {ds i d} : d ∈ ds → Inside s d.2 → Inside s (.mfix ds i)
  | letType {x t v b} : Inside s t → Inside s (.letE x t v b)
  | letValue {x t v b} : Inside s v → Inside s (.letE x t v b)
  | letBody {x t v b} : Inside s b → Inside s (.letE x t v b)

/-- One of the types of a block occurs in the term. -/
def Mentions (B : List String) (t : Term) : Prop := ∃ n ∈ B, Inside (.glob n) t

/-- `Πx₁:A₁. … Πxₙ:Aₙ. t`. -/
def pis : List (String × Term) → Term → Term
  | [], t => t
  | (x, a) :: ps, t => .pi x a (pis ps t)

/-- `t a₁ … aₙ`. -/
def appsTo (t : Term) : List Term → Term
  | [] => t
  | a :: as => appsTo (.app t a) as

/-- The type of a recursive field: a member of the block, applied to arguments without the block, at the end of a
telescope whose domains are without the block. -/
def RecursiveField (B : List String) (t : Term) : Prop :=
  ∃ ps n as, t = pis ps (appsTo (.glob n) as) ∧ n ∈ B ∧ (∀ e ∈ ps, ¬ Mentions B e.2) ∧ ∀ a ∈ as, ¬ Mentions B a

private theorem occursInL_iff {B : List String} : ∀ {cs : List Term}, occursInL B cs = true ↔ ∃ c ∈ cs, occursIn B c = true := by
  intro cs
  induction cs with
  | nil => simp [occursInL]
  | cons c cs ih => simp [occursInL, ih]

private theorem occursInD_iff {B : List String} : ∀ {ds : List (String × Term)},
    occursInD B ds = true ↔ ∃ d ∈ ds, occursIn B d.2 = true := by
  intro cs
  induction cs with
  | nil => simp [occursInD]
  | cons c cs ih => obtain ⟨x, b⟩ := c; simp [occursInD, ih]

private theorem occurs_of_inside {B : List String} {n : String} (hn : n ∈ B) {t : Term} (h : Inside (.glob n) t) :
    occursIn B t = true := by
  induction h with
  | here => simpa [occursIn] using hn
  | case hc _ ih => simp only [occursIn, Bool.or_eq_true, occursInL_iff]; exact .inr ⟨_, hc, ih⟩
  | member hd _ ih => simp only [occursIn, occursInD_iff]; exact ⟨_, hd, ih⟩
  | _ => simp_all [occursIn]

private theorem mentions_of_occurs {B : List String} {t : Term} : occursIn B t = true → Mentions B t := by
  induction t using Term.ind with
  | glob n => intro h; exact ⟨n, by simpa [occursIn] using h, .here⟩
  | app f a ihf iha =>
    intro h
    simp only [occursIn, Bool.or_eq_true] at h
    rcases h with h | h
    · obtain ⟨n, hn, h⟩ := ihf h; exact ⟨n, hn, .fn h⟩
    · obtain ⟨n, hn, h⟩ := iha h; exact ⟨n, hn, .arg h⟩
  | pi x a b iha ihb =>
    intro h
    simp only [occursIn, Bool.or_eq_true] at h
    rcases h with h | h
    · obtain ⟨n, hn, h⟩ := iha h; exact ⟨n, hn, .piDom h⟩
    · obtain ⟨n, hn, h⟩ := ihb h; exact ⟨n, hn, .piCod h⟩
  | lam x a b iha ihb =>
    intro h
    simp only [occursIn, Bool.or_eq_true] at h
    rcases h with h | h
    · obtain ⟨n, hn, h⟩ := iha h; exact ⟨n, hn, .lamDom h⟩
    · obtain ⟨n, hn, h⟩ := ihb h; exact ⟨n, hn, .lamBody h⟩
  | fix x b ihb =>
    intro h
    obtain ⟨n, hn, h⟩ := ihb (by simpa only [occursIn] using h)
    exact ⟨n, hn, .fixBody h⟩
  | mfix ds i ih =>
    intro h
    simp only [occursIn, occursInD_iff] at h
    obtain ⟨d, hd, h⟩ := h
    obtain ⟨n, hn, h⟩ := ih d hd h
    exact ⟨n, hn, .member hd h⟩
  | letE x ty v b iht ihv ihb =>
    intro h
    simp only [occursIn, Bool.or_eq_true] at h
    rcases h with (h | h) | h
    · obtain ⟨n, hn, h⟩ := iht h; exact ⟨n, hn, .letType h⟩
    · obtain ⟨n, hn, h⟩ := ihv h; exact ⟨n, hn, .letValue h⟩
    · obtain ⟨n, hn, h⟩ := ihb h; exact ⟨n, hn, .letBody h⟩
  | mtch d m cs ihd ihm ihcs =>
    intro h
    simp only [occursIn, Bool.or_eq_true, occursInL_iff] at h
    rcases h with (h | h) | ⟨c, hc, h⟩
    · obtain ⟨n, hn, h⟩ := ihd h; exact ⟨n, hn, .disc h⟩
    · obtain ⟨n, hn, h⟩ := ihm h; exact ⟨n, hn, .motive h⟩
    · obtain ⟨n, hn, h⟩ := ihcs c hc h; exact ⟨n, hn, .case hc h⟩
  | _ => intro h; simp [occursIn] at h

private theorem occurs_iff {B : List String} {t : Term} : occursIn B t = true ↔ Mentions B t :=
  ⟨mentions_of_occurs, fun ⟨_, hn, h⟩ => occurs_of_inside hn h⟩

private theorem not_occurs {B : List String} {t : Term} : occursIn B t = false ↔ ¬ Mentions B t := by
  rw [← occurs_iff]; simp

private theorem appsTo_snoc (t a : Term) : ∀ as, appsTo t (as ++ [a]) = .app (appsTo t as) a := by
  intro as
  induction as generalizing t with
  | nil => rfl
  | cons b as ih => exact ih _

private theorem plainHead_iff {B : List String} {t : Term} :
    plainHead B t = true ↔ ∃ n as, t = appsTo (.glob n) as ∧ n ∈ B ∧ ∀ a ∈ as, ¬ Mentions B a := by
  constructor
  · induction t using Term.ind with
    | glob n => intro h; exact ⟨n, [], rfl, by simpa [plainHead] using h, by simp⟩
    | app f a ih _ =>
      intro h
      simp only [plainHead, Bool.and_eq_true, Bool.not_eq_true'] at h
      obtain ⟨n, as, rfl, hn, has⟩ := ih h.2
      refine ⟨n, as ++ [a], (appsTo_snoc _ _ _).symm, hn, ?_⟩
      simp only [List.mem_append, List.mem_singleton]
      rintro b (hb | rfl)
      · exact has b hb
      · exact not_occurs.1 h.1
    | _ => intro h; simp [plainHead] at h
  · rintro ⟨n, as, rfl, hn, has⟩
    have : ∀ (as : List Term) (t : Term), plainHead B t = true → (∀ a ∈ as, ¬ Mentions B a) → plainHead B (appsTo t as) = true := by
      intro as
      induction as with
      | nil => intro t h _; exact h
      | cons a as ih =>
        intro t h ha
        simp only [List.mem_cons, forall_eq_or_imp] at ha
        exact ih _ (by simp [plainHead, h, not_occurs.2 ha.1]) ha.2
    exact this as _ (by simpa [plainHead] using hn) has

private theorem appsTo_not_pi {n : String} : ∀ (as : List Term) {x a b}, appsTo (.glob n) as ≠ .pi x a b := by
  intro as
  have : ∀ (as : List Term) (t : Term), (∀ x a b, t ≠ .pi x a b) → ∀ x a b, appsTo t as ≠ .pi x a b := by
    intro as
    induction as with
    | nil => intro t h; exact h
    | cons c as ih => intro t _; exact ih _ (by intro x a b h; cases h)
  intro x a b
  exact this as _ (by intro x a b h; cases h) x a b

private theorem recursive_iff {B : List String} {t : Term} : isRecursiveArg B t = true ↔ RecursiveField B t := by
  constructor
  · induction t using Term.ind with
    | pi x a b _ ihb =>
      intro h
      simp only [isRecursiveArg, Bool.and_eq_true, Bool.not_eq_true'] at h
      obtain ⟨ps, n, as, rfl, hn, hps, has⟩ := ihb h.2
      exact ⟨(x, a) :: ps, n, as, rfl, hn, by
        simp only [List.mem_cons, forall_eq_or_imp]; exact ⟨not_occurs.1 h.1, hps⟩, has⟩
    | _ =>
      intro h
      obtain ⟨n, as, e, hn, has⟩ := plainHead_iff.1 (by simpa only [isRecursiveArg] using h)
      exact ⟨[], n, as, e, hn, by simp, has⟩
  · rintro ⟨ps, n, as, rfl, hn, hps, has⟩
    induction ps with
    | nil =>
      have := (plainHead_iff (B := B)).2 ⟨n, as, rfl, hn, has⟩
      simp only [pis]
      unfold isRecursiveArg
      split
      · rename_i h; exact absurd h (appsTo_not_pi as)
      · exact this
    | cons p ps ih =>
      simp only [List.mem_cons, forall_eq_or_imp] at hps
      simp only [pis, isRecursiveArg, ih hps.2, not_occurs.2 hps.1]
      rfl

private theorem positive_of_none {B : List String} {t : Term} : occursIn B t = false → positive B t = true := by
  have hL : ∀ cs : List Term, (∀ c ∈ cs, occursIn B c = false → positive B c = true) → occursInL B cs = false →
      positiveL B cs = true := by
    intro cs
    induction cs with
    | nil => intro _ _; rfl
    | cons c cs ih =>
      intro h ho
      simp only [occursInL, Bool.or_eq_false_iff] at ho
      simp only [positiveL, Bool.and_eq_true]
      exact ⟨h c (by simp) ho.1, ih (fun c hc => h c (by simp [hc])) ho.2⟩
  have hD : ∀ cs : List (String × Term), (∀ c ∈ cs, occursIn B c.2 = false → positive B c.2 = true) → occursInD B cs = false →
      positiveD B cs = true := by
    intro cs
    induction cs with
    | nil => intro _ _; rfl
    | cons c cs ih =>
      obtain ⟨x, b⟩ := c
      intro h ho
      simp only [occursInD, Bool.or_eq_false_iff] at ho
      simp only [positiveD, Bool.and_eq_true]
      exact ⟨h (x, b) (by simp) ho.1, ih (fun c hc => h c (by simp [hc])) ho.2⟩
  induction t using Term.ind with
  | mtch d m cs ihd ihm ihcs =>
    intro h
    simp only [occursIn, Bool.or_eq_false_iff] at h
    simp only [positive, Bool.and_eq_true]
    exact ⟨⟨ihd h.1.1, ihm h.1.2⟩, hL cs ihcs h.2⟩
  | mfix ds i ih =>
    intro h
    exact hD ds ih (by simpa only [occursIn] using h)
  | _ => intro h; simp_all [occursIn, positive]

private theorem positive_pis {B : List String} {t : Term} : ∀ ps,
    positive B (pis ps t) = true ↔ (∀ e ∈ ps, ¬ Mentions B e.2 ∨ RecursiveField B e.2) ∧ positive B t = true := by
  intro ps
  induction ps with
  | nil => simp [pis]
  | cons p ps ih =>
    obtain ⟨x, a⟩ := p
    simp only [pis, positive, Bool.and_eq_true, Bool.or_eq_true, Bool.not_eq_true', ih, List.mem_cons, forall_eq_or_imp,
      not_occurs, recursive_iff, and_assoc, or_comm (a := RecursiveField B a)]

/-- **C115.**  The check of a constructor `c : Πx₁:A₁. … Πxₙ:Aₙ. I a₁ … aₘ` of a block accepts exactly if in each field
type `Aᵢ` no type of the block occurs, or `Aᵢ` is recursive: a type of the block at the end of a telescope, with none in
the domains and the arguments.  (The arguments `aⱼ` of the result are without the block.) -/
theorem C115_positive (B : List String) (fields : List (String × Term)) (i : String) (as : List Term)
    (has : ∀ a ∈ as, ¬ Mentions B a) :
    positive B (pis fields (appsTo (.glob i) as)) = true ↔ ∀ e ∈ fields, ¬ Mentions B e.2 ∨ RecursiveField B e.2 := by
  have h1 : ∀ (as : List Term) (t : Term), positive B t = true → (∀ a ∈ as, ¬ Mentions B a) → positive B (appsTo t as) = true := by
    intro as
    induction as with
    | nil => intro t h _; exact h
    | cons a as ih =>
      intro t h ha
      simp only [List.mem_cons, forall_eq_or_imp] at ha
      exact ih _ (by simp [positive, h, positive_of_none (not_occurs.2 ha.1)]) ha.2
  rw [positive_pis]
  simp [h1 as (.glob i) (by simp [positive]) has]

/-- The tree with branches over the natural numbers: `node : (Nat → Tree) → Tree`, and the type of the paradox:
`mk : (Bad → False) → Bad`. -/
example : positive ["Tree"] (.pi "_" (.pi "_" (.glob "Nat") (.glob "Tree")) (.glob "Tree")) = true ∧
    positive ["Bad"] (.pi "_" (.pi "_" (.glob "Bad") (.glob "False")) (.glob "Bad")) = false := by
  decide +kernel

/-- The truth of a type read as a formula: `Π` is implication, and `ρ` says which of the other terms hold. -/
def truth (ρ : Term → Prop) : Term → Prop
  | .pi _ a b => truth ρ a → truth ρ b
  | t => ρ t

private theorem truth_free {B : List String} {ρ ρ' : Term → Prop} (he : ∀ t, ¬ Mentions B t → (ρ t ↔ ρ' t)) (t : Term) :
    ¬ Mentions B t → (truth ρ t ↔ truth ρ' t) := by
  induction t using Term.ind with
  | pi x a b iha ihb =>
    intro h
    have ha : ¬ Mentions B a := fun ⟨n, hn, q⟩ => h ⟨n, hn, .piDom q⟩
    have hb : ¬ Mentions B b := fun ⟨n, hn, q⟩ => h ⟨n, hn, .piCod q⟩
    simp only [truth, iha ha, ihb hb]
  | _ => intro h; simpa only [truth] using he _ h

private theorem truth_plain {ρ : Term → Prop} {n : String} (as : List Term) :
    truth ρ (appsTo (.glob n) as) ↔ ρ (appsTo (.glob n) as) := by
  cases h : appsTo (.glob n) as with
  | pi x a b => exact absurd h (appsTo_not_pi as)
  | _ => simp [truth]

/-- **C115.**  The fields of an accepted constructor are monotone: whatever the atoms mean, when more comes to hold of
the block and nothing changes elsewhere, a field type that held still holds.  So the type can be had as the least one that
its constructors build. -/
theorem C115_monotone (B : List String) (fields : List (String × Term)) (core : Term) (ρ ρ' : Term → Prop)
    (accepted : positive B (pis fields core) = true)
    (elsewhere : ∀ t, ¬ Mentions B t → (ρ t ↔ ρ' t)) (more : ∀ t, Mentions B t → ρ t → ρ' t) :
    ∀ e ∈ fields, truth ρ e.2 → truth ρ' e.2 := by
  intro e he h
  rcases (positive_pis (B := B) fields).1 accepted |>.1 e he with hm | ⟨ps, n, as, hp, hn, hps, _⟩
  · exact (truth_free elsewhere _ hm).1 h
  · rw [hp] at h ⊢
    clear he hp
    induction ps with
    | nil =>
      simp only [pis, truth_plain] at h ⊢
      refine more _ ⟨n, hn, ?_⟩ h
      have : ∀ (as : List Term) (t : Term), Inside (.glob n) t → Inside (.glob n) (appsTo t as) := by
        intro as
        induction as with
        | nil => intro t h; exact h
        | cons a as ih => intro t h; exact ih _ (.fn h)
      exact this as _ .here
    | cons p ps ih =>
      simp only [List.mem_cons, forall_eq_or_imp] at hps
      simp only [pis, truth] at h ⊢
      intro ha
      exact ih (h ((truth_free elsewhere _ hps.1).2 ha)) hps.2

example : ∀ e ∈ [("_", Term.pi "_" (.glob "Nat") (.glob "Tree"))],
    truth (fun t => t = .glob "Nat") e.2 → truth (fun t => t = .glob "Nat" ∨ t = .glob "Tree") e.2 := by
  refine C115_monotone ["Tree"] _ (.glob "Tree") _ _ (by decide +kernel) ?_ ?_
  · intro t h
    have : t ≠ .glob "Tree" := by rintro rfl; exact h ⟨"Tree", by simp, .here⟩
    simp [this]
  · intro t _ h
    exact .inl h

/-- The fields that are not monotone are refused: here a field that asks for the negation of the type. -/
theorem C115_negative_refused (B : List String) (fields : List (String × Term)) (core : Term) (x : String) (a b : Term)
    (hf : ∃ e ∈ fields, e.2 = .pi x a b) (ha : Mentions B a) : positive B (pis fields core) = false := by
  obtain ⟨e, he, heq⟩ := hf
  cases hp : positive B (pis fields core) with
  | false => rfl
  | true =>
    exfalso
    rcases (positive_pis (B := B) fields).1 hp |>.1 e he with hm | ⟨ps, n, as, hr, _, hps, _⟩
    · rw [heq] at hm
      obtain ⟨n, hn, q⟩ := ha
      exact hm ⟨n, hn, .piDom q⟩
    · rw [heq] at hr
      cases ps with
      | nil => exact appsTo_not_pi as hr.symm
      | cons p ps =>
        simp only [pis, Term.pi.injEq] at hr
        exact hps p (by simp) (hr.2.1 ▸ ha)

example : Mentions ["Bad"] (.pi "_" (.glob "Nat") (.glob "Bad")) := ⟨"Bad", by simp, .piCod .here⟩

/-! ## Sessions -/

/-- The part of the standard library used here: `True` with its proof `I`, `False`, and the numbers. -/
def library : Session where
  inductives := [("True", .sort .prop), ("False", .sort .prop), ("Nat", .sort (.type 0))]
  constructors := [("I", "True", .glob "True"), ("Zero", "Nat", .glob "Nat"), ("Succ", "Nat", .pi "_" (.glob "Nat") (.glob "Nat"))]
  order := [("True", "I"), ("Nat", "Zero"), ("Nat", "Succ")]
  definitions := []
  declarations := []

/-- **C115, the flaw.**  A definition with a declared type is recorded with that type, whatever the type of its body:
`Definition bad : False := Zero.  Check bad.` prints `False`.  It holds for every front that takes the two commands
without change. -/
theorem C115_definition_fails (F : Front) (n : Nat) (hn : F.fuel = n + 1)
    (plain : F.elaborate library "bad" (some (.glob "False")) (.glob "Zero") = .ok (some (.glob "False"), .glob "Zero")) :
    (session F library [.definition "bad" (some (.glob "False")) (.glob "Zero"), .check (.glob "bad")]).2 =
      [.ok none, .ok (some (.glob "False"))] := by
  simp only [session, execute, plain]
  simp [Front.infer, kernelType, hn, inferType, Session.ctx, Session.typeOf, library,
    Session.addDefinition, orUnbound, List.lookup, Except.map]

/-- **C115, the flaw.**  The result of a constructor is not looked at: `Inductive Oops := oops : False.  Check oops.`
prints `False`. -/
theorem C115_constructor_fails (F : Front) (n : Nat) (hn : F.fuel = n + 1) :
    (session F library [.inductive "Oops" [("oops", .glob "False")], .check (.glob "oops")]).2 =
      [.ok none, .ok (some (.glob "False"))] := by
  simp [session, execute, addAll, addChecked, positive, universesFit, fieldsFit, Front.infer, kernelType, hn, inferType,
    Session.ctx, Session.typeOf, library, Session.addInductive, Session.addConstructor, orUnbound, List.lookup, resultSort,
    Except.map, Bind.bind, Except.bind]

/-- The type of the paradox after a harmless constructor. -/
def badType : Cmd := .inductive "Bad" [("ok", .glob "Bad"),
  ("mk", .pi "_" (.pi "_" (.glob "Bad") (.glob "False")) (.glob "Bad"))]

/-- **C115, the flaw.**  A refused declaration is not undone: the type and the constructors before the refused one stay. -/
theorem C115_undo_fails (F : Front) (n : Nat) (hn : F.fuel = n + 1) :
    (session F library [badType, .check (.glob "ok")]).2 = [.error .notPositive, .ok (some (.glob "Bad"))] := by
  simp [session, execute, badType, addAll, addChecked, positive, isRecursiveArg, plainHead, occursIn, universesFit, fieldsFit,
    Front.infer, kernelType, hn, inferType,
    Session.ctx, Session.typeOf, library, Session.addInductive, Session.addConstructor, orUnbound, List.lookup, resultSort,
    Except.map, Bind.bind, Except.bind]

private theorem infer_glob (F : Front) (n : Nat) (hn : F.fuel = n + 3) (s : Session) (g : String) (t : Term)
    (h : s.typeOf g = some t) : F.infer s s.ctx (.glob g) = .ok t := by
  simp [Front.infer, kernelType, hn, inferType, Session.ctx, h, orUnbound]

private theorem infer_id (F : Front) (n : Nat) (hn : F.fuel = n + 3) (s : Session) (y a p t k : String)
    (refl : ∀ s c m, F.slow s c (.glob m) (.glob m) = true) (ha : s.typeOf a = some (.sort .prop))
    (hp : s.typeOf p = some (.glob t)) (na : F.norm s s.ctx (.glob a) = .glob k) (nt : F.norm s s.ctx (.glob t) = .glob k) :
    F.infer s s.ctx (.app (.lam y (.glob a) (.var y)) (.glob p)) = .ok (.glob a) := by
  simp only [Session.ctx] at na nt
  simp [Front.infer, kernelType, hn, inferType, Session.ctx, ha, hp, orUnbound, Bind.bind, Except.bind, asSort, exposePi,
    checkType, compareTypes, isSubtype, Ctx.extend, substitute, na, nt, refl, occursFree]

/-- Four definitions without declared types. -/
def redefine : List Cmd :=
  [.definition "T" none (.glob "True"),
   .definition "x" none (.app (.lam "y" (.glob "T") (.var "y")) (.glob "I")),
   .definition "T" none (.glob "False"),
   .definition "y" none (.app (.lam "z" (.glob "False") (.var "z")) (.glob "x")),
   .check (.glob "y")]

/-- **C115, the flaw.**  A name may be defined again, and what was checked before keeps the types that mention it:
`T := True`, `x : T` from the proof of `True`, `T := False`, and `x` proves `False`.  It holds for every front that takes
these commands without change, unfolds a name defined as another name, leaves undefined names alone, and finds a name
below itself. -/
theorem C115_redefine_fails (F : Front) (n : Nat) (hn : F.fuel = n + 3)
    (plain : ∀ s m b, .definition m none b ∈ redefine → F.elaborate s m none b = .ok (none, b))
    (unfold : ∀ s c m k ty, s.definitions.lookup m = some (ty, .glob k) → s.definitions.lookup k = none →
      F.norm s c (.glob m) = .glob k)
    (stays : ∀ s c m, s.definitions.lookup m = none → F.norm s c (.glob m) = .glob m)
    (refl : ∀ s c m, F.slow s c (.glob m) (.glob m) = true) :
    (session F library redefine).2 = [.ok none, .ok none, .ok none, .ok none, .ok (some (.glob "False"))] := by
  let d1 : List (String × Term × Term) := [("T", .sort .prop, .glob "True")]
  let d2 : List (String × Term × Term) := ("x", .glob "T", .app (.lam "y" (.glob "T") (.var "y")) (.glob "I")) :: d1
  let d3 : List (String × Term × Term) := ("T", .sort .prop, .glob "False") :: d2
  let d4 : List (String × Term × Term) := ("y", .glob "False", .app (.lam "z" (.glob "False") (.var "z")) (.glob "x")) :: d3
  let at' : List (String × Term × Term) → Session :=
    fun d => ⟨library.inductives, library.constructors, library.order, d, library.declarations⟩
  have e1 : execute F library (.definition "T" none (.glob "True")) = (at' d1, .ok none) := by
    simp only [execute, plain _ "T" (.glob "True") (by simp [redefine]), infer_glob F n hn library "True" (.sort .prop) (by simp [library, Session.typeOf, List.lookup])]
    rfl
  have e2 : execute F (at' d1) (.definition "x" none (.app (.lam "y" (.glob "T") (.var "y")) (.glob "I"))) = (at' d2, .ok none) := by
    simp only [execute, plain _ "x" (.app (.lam "y" (.glob "T") (.var "y")) (.glob "I")) (by simp [redefine]), infer_id F n hn (at' d1) "y" "T" "I" "True" "True" refl
      (by simp [at', d1, library, Session.typeOf, List.lookup]) (by simp [at', d1, library, Session.typeOf, List.lookup])
      (unfold _ _ _ _ (.sort .prop) (by simp [at', d1]) (by simp [at', d1, List.lookup]))
      (stays _ _ _ (by simp [at', d1, List.lookup]))]
    rfl
  have e3 : execute F (at' d2) (.definition "T" none (.glob "False")) = (at' d3, .ok none) := by
    simp only [execute, plain _ "T" (.glob "False") (by simp [redefine]), infer_glob F n hn (at' d2) "False" (.sort .prop)
      (by simp [at', d1, d2, library, Session.typeOf, List.lookup])]
    rfl
  have e4 : execute F (at' d3) (.definition "y" none (.app (.lam "z" (.glob "False") (.var "z")) (.glob "x"))) =
      (at' d4, .ok none) := by
    simp only [execute, plain _ "y" (.app (.lam "z" (.glob "False") (.var "z")) (.glob "x")) (by simp [redefine]), infer_id F n hn (at' d3) "z" "False" "x" "T" "False" refl
      (by simp [at', d1, d2, d3, library, Session.typeOf, List.lookup])
      (by simp [at', d1, d2, d3, library, Session.typeOf, List.lookup])
      (stays _ _ _ (by simp [at', d1, d2, d3, List.lookup]))
      (unfold _ _ _ _ (.sort .prop) (by simp [at', d3]) (by simp [at', d1, d2, d3, List.lookup]))]
    rfl
  have e5 : execute F (at' d4) (.check (.glob "y")) = (at' d4, .ok (some (.glob "False"))) := by
    simp only [execute, infer_glob F n hn (at' d4) "y" (.glob "False") (by simp [at', d4, library, Session.typeOf, List.lookup])]
    rfl
  simp only [redefine, session, e1, e2, e3, e4, e5]

/-- **C115.**  In a session of definitions without declared types, checks and declarations, every definition was recorded
with the type that the kernel gave its body in the session as it was then (which a later command may change: see above). -/
theorem C115_inferred_partial (F : Front) (keeps : ∀ s m b t b', F.elaborate s m none b = .ok (t, b') → t = none) :
    ∀ (cs : List Cmd) (s : Session), (∀ n ty b, Cmd.definition n ty b ∈ cs → ty = none) →
    ∀ n ty b, (n, ty, b) ∈ (session F s cs).1.definitions → (n, ty, b) ∈ s.definitions ∨
      ∃ k, F.infer (session F s (cs.take k)).1 (session F s (cs.take k)).1.ctx b = .ok ty := by
  have hadd : ∀ (i : String) (cs : List (String × Term)) (s : Session), (addAll F i s cs).1.definitions = s.definitions := by
    intro i cs
    induction cs with
    | nil => intro s; rfl
    | cons c cs ih =>
      obtain ⟨c, t⟩ := c
      intro s
      simp only [addAll]
      cases h : addChecked F s c i t with
      | error e => rfl
      | ok s' =>
        simp only [ih]
        unfold addChecked at h
        split at h
        · cases hu : universesFit F s i t with
          | error e => simp [hu, Bind.bind, Except.bind] at h
          | ok u =>
            simp only [hu, Bind.bind, Except.bind, Except.ok.injEq] at h
            subst h
            rfl
        · cases h
  intro cs
  induction cs with
  | nil => intro s _ n ty b h; exact .inl h
  | cons c cs ih =>
    intro s hty n ty b h
    simp only [session] at h
    rcases ih (execute F s c).1 (fun n ty b h => hty n ty b (by simp [h])) n ty b h with h1 | ⟨k, hk⟩
    · cases c with
      | check t => exact .inl h1
      | «inductive» i ctors =>
        simp only [execute, hadd] at h1
        exact .inl h1
      | definition m t body =>
        have ht := hty m t body (by simp)
        subst ht
        simp only [execute] at h1
        cases he : F.elaborate s m none body with
        | error e => simp only [he] at h1; exact .inl h1
        | ok r =>
          obtain ⟨r1, r2⟩ := r
          have := keeps s m body r1 r2 he
          subst this
          simp only [he] at h1
          cases hi : F.infer s s.ctx r2 with
          | error e => simp only [hi] at h1; exact .inl h1
          | ok inferred =>
            simp only [hi, Session.addDefinition, Option.getD_none, List.mem_cons, Prod.mk.injEq] at h1
            rcases h1 with ⟨_, rfl, rfl⟩ | h1
            · exact .inr ⟨0, by simpa [session] using hi⟩
            · exact .inl h1
    · exact .inr ⟨k + 1, by simpa [session] using hk⟩

/-- A front that changes nothing and unfolds one definition. -/
def plainFront : Front where
  norm s _ t := match t with
    | .glob m => match s.definitions.lookup m with
      | some (_, .glob k) => .glob k
      | _ => .glob m
    | t => t
  slow _ _ a b := match a, b with
    | .glob m, .glob k => m == k
    | _, _ => false
  elaborate _ _ ty b := .ok (ty, b)
  fuel := 10

example : (session plainFront library redefine).2 = [.ok none, .ok none, .ok none, .ok none, .ok (some (.glob "False"))] := by
  refine C115_redefine_fails plainFront 7 rfl (fun _ _ _ _ => rfl) ?_ ?_ (by intros; simp [plainFront])
  · intro s c m k ty h _
    simp [plainFront, h]
  · intro s c m h
    simp [plainFront, h]

/-- **C115.**  A refused definition, and every check, leaves the session as it was. -/
theorem C115_undo_partial (F : Front) (s : Session) (c : Cmd) (h : ∀ n cs, c ≠ .inductive n cs)
    (hr : (execute F s c).2 ≠ .ok none) : (execute F s c).1 = s := by
  cases c with
  | check t => rfl
  | «inductive» n cs => exact absurd rfl (h n cs)
  | definition n ty b =>
    simp only [execute] at hr ⊢
    cases he : F.elaborate s n ty b with
    | error e => rfl
    | ok r =>
      simp only [he] at hr ⊢
      cases hi : F.infer s s.ctx r.2 with
      | error e => rfl
      | ok t => simp [hi] at hr

example : (execute plainFront library (.definition "x" none (.app (.glob "Zero") (.glob "I")))).2 = .error .notAFunction := by
  simp [execute, plainFront, Front.infer, kernelType, inferType, Session.ctx, Session.typeOf, library, orUnbound, List.lookup,
    Bind.bind, Except.bind, exposePi]

/-! ## Universes -/

/-- The context after binders. -/
def ctxUnder (c : Ctx) : List (String × Term) → Ctx
  | [] => c
  | (x, a) :: ps => ctxUnder ⟨fun y => if y = x then some a else c.locals y, c.globals⟩ ps

/-- Each field has a type in a universe not above `u`, in the context of the binders before it. -/
def FieldsBelow (F : Front) (s : Session) (u : Universe) (c : Ctx) (fields : List (String × Term)) : Prop :=
  ∀ before x a after, fields = before ++ (x, a) :: after → ∃ v, F.infer s (ctxUnder c before) a = .ok (.sort v) ∧ v.isSubtypeOf u = true

private theorem fits_cons {F : Front} {s : Session} {u : Universe} {c : Ctx} {x : String} {a : Term} {fields : List (String × Term)} :
    FieldsBelow F s u c ((x, a) :: fields) ↔ (∃ v, F.infer s c a = .ok (.sort v) ∧ v.isSubtypeOf u = true) ∧ FieldsBelow F s u (c.extend x a) fields := by
  constructor
  · intro h
    refine ⟨h [] x a fields rfl, ?_⟩
    intro before y b after e
    exact h ((x, a) :: before) y b after (by simp [e])
  · rintro ⟨h1, h2⟩ before y b after e
    cases before with
    | nil =>
      simp only [List.nil_append, List.cons.injEq, Prod.mk.injEq] at e
      obtain ⟨⟨rfl, rfl⟩, _⟩ := e
      exact h1
    | cons p before =>
      simp only [List.cons_append, List.cons.injEq] at e
      obtain ⟨rfl, rfl⟩ := e
      exact h2 before y b after rfl

private theorem fieldsFit_fields {F : Front} {s : Session} {u : Universe} {core : Term} (hcore : ∀ x a b, core ≠ .pi x a b) :
    ∀ (fields : List (String × Term)) (c : Ctx), fieldsFit F s u c 0 (pis fields core) = .ok () ↔ FieldsBelow F s u c fields := by
  intro fields
  induction fields with
  | nil =>
    intro c
    have : fieldsFit F s u c 0 core = .ok () := by
      cases core with
      | pi x a b => exact absurd rfl (hcore x a b)
      | _ => rfl
    simp only [pis, this, true_iff]
    intro before x a after e
    simp at e
  | cons p fields ih =>
    obtain ⟨x, a⟩ := p
    intro c
    rw [fits_cons, ← ih]
    simp only [pis, fieldsFit, Bind.bind, Except.bind]
    cases hi : F.infer s c a with
    | error e => simp
    | ok t =>
      cases t with
      | sort v =>
        simp only [asSort, Except.ok.injEq, Term.sort.injEq]
        by_cases hv : v.isSubtypeOf u = true
        · simp [hv]
        · simp [hv]
      | _ => simp [asSort]

private theorem fieldsFit_params {F : Front} {s : Session} {u : Universe} {core : Term} (hcore : ∀ x a b, core ≠ .pi x a b)
    (fields : List (String × Term)) : ∀ (params : List (String × Term)) (c : Ctx),
    fieldsFit F s u c params.length (pis (params ++ fields) core) = .ok () ↔ FieldsBelow F s u (ctxUnder c params) fields := by
  intro params
  induction params with
  | nil => intro c; simpa [ctxUnder] using fieldsFit_fields hcore fields c
  | cons p params ih =>
    obtain ⟨x, a⟩ := p
    intro c
    simp only [List.length_cons, List.cons_append, pis, fieldsFit]
    exact ih _

private theorem resultSort_pis (ps : List (String × Term)) (u : Universe) : resultSort (pis ps (.sort u)) = some u := by
  induction ps with
  | nil => rfl
  | cons p ps ih => obtain ⟨x, a⟩ := p; simpa [pis, resultSort] using ih

/-- **C115.**  A constructor of a type in a universe `u` other than `Prop` is accepted exactly if it is positive and, after the
parameters of the type, the type of each field lives in a universe not above `u`, in the context of the binders before it. -/
theorem C115_universes (F : Front) (s : Session) (c i : String) (ps params fields : List (String × Term)) (core : Term) (u : Universe)
    (hi : s.typeOf i = some (pis ps (.sort u))) (hu : u ≠ .prop) (hp : params.length = s.decls.numParams i)
    (hcore : ∀ x a b, core ≠ .pi x a b) :
    (∃ s', addChecked F s c i (pis (params ++ fields) core) = .ok s') ↔
      positive [i] (pis (params ++ fields) core) = true ∧ FieldsBelow F s u (ctxUnder s.ctx params) fields := by
  have h1 : universesFit F s i (pis (params ++ fields) core) = fieldsFit F s u s.ctx params.length (pis (params ++ fields) core) := by
    simp only [universesFit, hi, Option.bind_some, resultSort_pis, hp]
    try (cases u <;> first | rfl | exact absurd rfl hu)
  rw [← fieldsFit_params hcore]
  unfold addChecked
  by_cases hpos : positive [i] (pis (params ++ fields) core) = true
  · simp only [hpos, if_true, true_and, h1, Bind.bind, Except.bind]
    cases fieldsFit F s u s.ctx params.length (pis (params ++ fields) core) with
    | error e => simp
    | ok x => simp
  · simp [hpos]

/-- **C115.**  A constructor of a proposition is accepted exactly if it is positive. -/
theorem C115_proposition (F : Front) (s : Session) (c i : String) (ps : List (String × Term)) (ty : Term)
    (hi : s.typeOf i = some (pis ps (.sort .prop))) :
    (∃ s', addChecked F s c i ty = .ok s') ↔ positive [i] ty = true := by
  have h1 : universesFit F s i ty = .ok () := by
    simp only [universesFit, hi, Option.bind_some, resultSort_pis]
  unfold addChecked
  by_cases hpos : positive [i] ty = true <;> simp [hpos, h1, Bind.bind, Except.bind]

/-- **C115.**  A constructor that is accepted changes nothing but its own name, and has from then on the type it was given,
unless a type has that name. -/
theorem C115_recorded (F : Front) (s s' : Session) (c i : String) (ty : Term) (h : addChecked F s c i ty = .ok s') :
    (s.inductives.lookup c = none → s'.typeOf c = some ty) ∧ ∀ n, n ≠ c → s'.typeOf n = s.typeOf n := by
  have e : s' = s.addConstructor c i ty := by
    unfold addChecked at h
    split at h
    · cases hu : universesFit F s i ty with
      | error e => simp [hu, Bind.bind, Except.bind] at h
      | ok x =>
        simp only [hu, Bind.bind, Except.bind, Except.ok.injEq] at h
        exact h.symm
    · cases h
  subst e
  constructor
  · intro hn
    simp [Session.typeOf, Session.addConstructor, hn, List.lookup]
  · intro n hn
    have : (n == c) = false := by simpa using hn
    simp [Session.typeOf, Session.addConstructor, List.lookup, this]

private theorem accepted_eq {F : Front} {s s' : Session} {c i : String} {ty : Term} (h : addChecked F s c i ty = .ok s') :
    s' = s.addConstructor c i ty := by
  unfold addChecked at h
  split at h
  · cases hu : universesFit F s i ty with
    | error e => simp [hu, Bind.bind, Except.bind] at h
    | ok x =>
      simp only [hu, Bind.bind, Except.bind, Except.ok.injEq] at h
      exact h.symm
  · cases h

/-- **C115.**  A constructor of a name that has no type, and so no universe, is accepted exactly if it is positive. -/
theorem C115_undeclared (F : Front) (s : Session) (c i : String) (ty : Term) (hi : s.typeOf i = none) :
    (∃ s', addChecked F s c i ty = .ok s') ↔ positive [i] ty = true := by
  have h1 : universesFit F s i ty = .ok () := by
    simp only [universesFit, hi, Option.bind_none]
  unfold addChecked
  by_cases hpos : positive [i] ty = true <;> simp [hpos, h1, Bind.bind, Except.bind]

/-- **C115.**  A constructor that is accepted under a new name comes last among the constructors of its type, with the type
it was given, and the constructors of the other types stay. -/
theorem C115_listed (F : Front) (s s' : Session) (c i : String) (ty : Term) (hc : ∀ e ∈ s.order, e.2 ≠ c)
    (h : addChecked F s c i ty = .ok s') :
    s'.decls.ctors i = s.decls.ctors i ++ [(c, ty)] ∧ ∀ j, j ≠ i → s'.decls.ctors j = s.decls.ctors j := by
  rw [accepted_eq h]
  have key : ∀ j, ((s.order.filter fun e => e.1 == j).filterMap fun e =>
        (((c, i, ty) :: s.constructors).lookup e.2).map fun c => (e.2, c.2)) =
      (s.order.filter fun e => e.1 == j).filterMap fun e => (s.constructors.lookup e.2).map fun c => (e.2, c.2) := by
    intro j
    refine List.filterMap_congr fun e he => ?_
    have : (e.2 == c) = false := by simpa using hc e (List.mem_of_mem_filter he)
    simp [List.lookup, this]
  constructor
  · simp only [Session.decls, Session.addConstructor, List.filter_append, List.filterMap_append, key]
    simp [List.lookup]
  · intro j hj
    have : (i == j) = false := by simpa using hj.symm
    simp only [Session.decls, Session.addConstructor, List.filter_append, List.filterMap_append, key]
    simp [this]

/-- With `Box` of sort `Type 0`, a field `Nat` is accepted and a field `Type 0` is not. -/
example : (∃ s', addChecked plainFront (library.addInductive "Box" (.sort (.type 0))) "box" "Box"
      (pis ([] ++ [("_", .glob "Nat")]) (.glob "Box")) = .ok s') ∧
    ¬ ∃ s', addChecked plainFront (library.addInductive "Box" (.sort (.type 0))) "box" "Box"
      (pis ([] ++ [("_", .sort (.type 0))]) (.glob "Box")) = .ok s' := by
  constructor
  · rw [C115_universes plainFront _ "box" "Box" [] [] _ _ (.type 0) rfl (by simp) (by decide) (by intros; simp)]
    refine ⟨by decide +kernel, ?_⟩
    intro before x a after e
    rcases before with _ | ⟨p, before⟩
    · simp only [List.nil_append, List.cons.injEq, Prod.mk.injEq] at e
      obtain ⟨⟨rfl, rfl⟩, _⟩ := e
      refine ⟨.type 0, ?_, by decide +kernel⟩
      simp [ctxUnder, Front.infer, kernelType, plainFront, inferType, Session.ctx, Session.typeOf, Session.addInductive, library, orUnbound, List.lookup]
    · simp at e
  · rw [C115_universes plainFront _ "box" "Box" [] [] _ _ (.type 0) rfl (by simp) (by decide) (by intros; simp)]
    rintro ⟨_, h⟩
    obtain ⟨v, h1, h2⟩ := h [] "_" (.sort (.type 0)) [] rfl
    simp [ctxUnder, Front.infer, kernelType, plainFront, inferType, Universe.mkSucc] at h1
    subst h1
    revert h2
    decide +kernel

/-- After `box` of `Box`, a second constructor comes after it. -/
example : (addChecked plainFront (library.addInductive "Box" (.sort .prop)) "box" "Box" (.glob "Box")).toOption.bind
      (fun s => (addChecked plainFront s "case" "Box" (.glob "Box")).toOption.map fun s' => s'.decls.ctors "Box") =
      some [("box", .glob "Box"), ("case", .glob "Box")] ∧
    library.typeOf "Box" = none ∧ (∀ e ∈ library.order, e.2 ≠ "box") ∧
    positive ["Box"] (.pi "_" (.sort (.type 3)) (.glob "Box")) = true := by
  exact ⟨rfl, rfl, by decide +kernel, by decide +kernel⟩

end Verif.Props
