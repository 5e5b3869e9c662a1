import Verif.Kernel.DbGuardLemmas
import Verif.Kernel.DbInfer
import Verif.Props.Guard
/-!
# C114: the two kernels on recursion

`recheck.rs` types a term again, on nameless terms and with its own guard; `double_check` compares the two results.
-/
namespace Verif.Props
open Verif.Core
open Verif.Level (Universe)

/-- `λx₁:A₁. … λxₙ:Aₙ. core`. -/
def lams : List (String × Term) → Term → Term
  | [], c => c
  | (x, a) :: ps, c => .lam x a (lams ps c)

/-- `ty a₁ … aₙ`. -/
inductive HeadedBy (ty : String) : Term → Prop
  | type : HeadedBy ty (.glob ty)
  | app {t a : Term} : HeadedBy ty t → HeadedBy ty (.app t a)

private theorem headed {D : Decls} {ty : String} : ∀ {t : Term}, inductiveName D t = some ty →
    HeadedBy ty t ∧ (D.ind ty).isSome = true := by
  intro t
  induction t using Term.ind with
  | glob n =>
    intro h
    simp only [inductiveName] at h
    split at h
    · rename_i h'
      cases h
      exact ⟨.type, h'⟩
    · cases h
  | app f a ih _ =>
    intro h
    obtain ⟨h1, h2⟩ := ih (by simpa [inductiveName] using h)
    exact ⟨.app h1, h2⟩
  | _ => intro h; simp [inductiveName] at h

private theorem telescope_lams {c : Term} (hc : ∀ x a b, c ≠ .lam x a b) : ∀ ps, telescope (lams ps c) = ps := by
  intro ps
  induction ps with
  | nil =>
    cases c with
    | lam x a b => exact absurd rfl (hc x a b)
    | _ => rfl
  | cons p ps ih => simp only [lams, telescope, ih]

private theorem fit_lams {m : Nat} {c : Term} : ∀ ps, CasesFit m (lams ps c) →
    (∀ e ∈ ps, CasesFit m e.2) ∧ CasesFit m c := by
  intro ps
  induction ps with
  | nil => intro h; exact ⟨by simp, h⟩
  | cons p ps ih =>
    intro h
    simp only [lams, CasesFit] at h
    obtain ⟨h1, h2⟩ := ih h.2
    exact ⟨by simp only [List.mem_cons, forall_eq_or_imp]; exact ⟨h.1, h1⟩, h2⟩

private theorem fit_peel {m : Nat} : ∀ (k : Nat) (t : Term), CasesFit m t → CasesFit m (peel k t) := by
  intro k
  induction k with
  | zero => intro t h; exact h
  | succ k ih =>
    intro t h
    cases t with
    | lam x a b => simp only [CasesFit] at h; exact ih b h.2
    | _ => exact ih _ h

private theorem doms_lams {c : Term} : ∀ ps {Γ B}, toDb Γ (lams ps c) = .ok B → (∀ x a b, c ≠ .lam x a b) →
    ∀ A ∈ B.doms, ∃ e ∈ ps, ∃ Γ', toDb Γ' e.2 = .ok A := by
  intro ps
  induction ps with
  | nil =>
    intro Γ B h hc A hA
    exfalso
    have h1 := (tele_agree (D := ⟨fun _ => none, fun _ => [], fun _ => none, fun _ => none⟩) _ h).1
    have h2 := congrArg List.length h1
    rw [telescope_lams hc []] at h2
    simp only [List.length_map, List.length_nil, List.length_eq_zero_iff] at h2
    rw [h2] at hA
    cases hA
  | cons p ps ih =>
    intro Γ B h hc A hA
    simp only [lams, toDb, ok_bind, Except.ok.injEq] at h
    obtain ⟨A', hA', B', hB, rfl⟩ := h
    simp only [Db.doms, List.mem_cons] at hA
    rcases hA with rfl | hA
    · exact ⟨p, by simp, Γ, hA'⟩
    · obtain ⟨e, he, Γ', h'⟩ := ih hB hc A hA
      exact ⟨e, by simp [he], Γ', h'⟩

/-- **C114.**  On a function `fix f. λx₁:A₁. … λxₙ:Aₙ. core`, below any binders, whose parameters have names of their
own and whose parameter types are in head normal form, the guard of the second kernel accepts exactly what the guard of
the first does, provided that no match has more cases than a type of a parameter has constructors (a term with such a
match is refused for its type by both). -/
theorem C114_same_partial (D : Decls) (whnf : Db → Db) (f : String) (ps : List (String × Term)) (core : Term)
    (Γ : List String) (B : Db) (hcore : ∀ x a b, core ≠ .lam x a b)
    (hB : toDb (f :: Γ) (lams ps core) = .ok B)
    (distinct : (f :: ps.map Prod.fst).Nodup)
    (normal : ∀ e ∈ ps, ∀ Δ A, toDb Δ e.2 = .ok A → whnf A = A)
    (fit : ∀ e ∈ ps, ∀ ty, HeadedBy ty e.2 → (D.ind ty).isSome → CasesFit (D.ctors ty).length (lams ps core)) :
    checkTerminates D whnf Γ.length B = checkTermination D f (lams ps core) := by
  have ht := telescope_lams hcore ps
  simp only [List.nodup_cons] at distinct
  refine checks_agree hB (by rw [ht]; exact distinct.1) (by rw [ht]; exact distinct.2) ?_ ?_
  · intro A hA
    obtain ⟨e, he, Δ, h⟩ := doms_lams ps hB hcore A hA
    rw [normal e he Δ A h]
  · intro p ty h
    rw [ht] at h
    cases he : ps[p]? with
    | none => simp [he] at h
    | some e =>
      simp only [he, Option.bind_some] at h
      obtain ⟨h1, h2⟩ := headed h
      exact fit_peel _ _ (fit e (List.mem_of_getElem? he) ty h1 h2)

/-- **C114.**  The second kernel gives a variable the type of its binder, read from where the variable stands: a binder `A`
whose type is the binder `j` places outside it is `j + k + 1` places out from below `k` binders, and that is the same binder. -/
theorem C114_variable (Γ : List Db) (k j : Nat) (h : Γ[k]? = some (.var j)) :
    varType Γ k = .ok (.var (j + k + 1)) ∧ Γ[j + k + 1]? = (Γ.drop (k + 1))[j]? := by
  refine ⟨?_, by rw [List.getElem?_drop]; congr 1; omega⟩
  simp only [varType, h, shift]
  simp only [Except.ok.injEq, Db.var.injEq, Nat.zero_le, Nat.not_lt_zero, if_false, if_true, ge_iff_le]
  omega

example : varType [.glob "Nat", .var 0, .sort .prop] 1 = .ok (.var 2) := (C114_variable _ 1 0 rfl).1

/-- The loop of C113 below the binder of the recursion, nameless. -/
def loopDb : Db :=
  let list := Db.app (.glob "TList") (.glob "Nat")
  .lam list (.mtch (.var 0) (.pi list (.glob "False"))
    [.lam list (.app (.app (.var 2) (.var 0)) (.var 0)),
     .lam (.glob "Nat") (.lam list (.lam list (.app (.app (.var 4) (.var 0)) (.var 0))))])

private theorem loop_toDb : toDb ["f"] loopBody = .ok loopDb := by rfl

example : checkTerminates listDecls id 0 loopDb = checkTermination listDecls "f" loopBody := by
  have := C114_same_partial listDecls id "f" [("l", numList)] (.mtch (.var "l") toFalse
    [.lam "y" numList selfCall, .lam "h" (.glob "Nat") (.lam "t" numList (.lam "y" numList selfCall))]) [] loopDb
    (by intro x a b h; cases h) loop_toDb (by simp) (by intro e _ Δ A _; rfl) (by
      intro e he ty h _
      simp only [List.mem_singleton] at he
      subst he
      cases h with
      | app h =>
        cases h
        simp [listDecls, lams, CasesFit, CasesFitL, numList, toFalse, selfCall])
  exact this

/-- A function whose two parameters have one name: `fix f. λx:Nat. λx:Nat. match x with Zero ⇒ x | Succ y ⇒ f y y`. -/
def sameName : Term :=
  .lam "x" (.glob "Nat") (.lam "x" (.glob "Nat") (.mtch (.var "x") (.glob "Nat")
    [.var "x", .lam "y" (.glob "Nat") (.app (.app (.var "f") (.var "y")) (.var "y"))]))
def sameNameDb : Db :=
  .lam (.glob "Nat") (.lam (.glob "Nat") (.mtch (.var 0) (.glob "Nat")
    [.var 0, .lam (.glob "Nat") (.app (.app (.var 3) (.var 0)) (.var 0))]))

/-- **C114, the guards differ.**  With a name used twice, the first guard takes the outer parameter for the one that is
matched and refuses; the second takes the inner one and accepts. -/
theorem C114_names_fails : toDb ["f"] sameName = .ok sameNameDb ∧ checkTermination listDecls "f" sameName = false ∧
    ∀ whnf : Db → Db, whnf (.glob "Nat") = .glob "Nat" → checkTerminates listDecls whnf 0 sameNameDb = true := by
  refine ⟨rfl, by decide +kernel, ?_⟩
  intro w h
  have hl : locate listDecls w 1 sameNameDb = some ("Nat", 1, .mtch (.var 0) (.glob "Nat")
      [.var 0, .lam (.glob "Nat") (.app (.app (.var 3) (.var 0)) (.var 0))]) := by
    simp [locate, sameNameDb, Db.doms, h, Db.indName, listDecls, Db.under, Db.scrutinee, levelOf, choose, Db.peel]
    rfl
  simp only [checkTerminates, hl]
  decide +kernel

/-- A function on an abbreviation `N` of `Nat`. -/
def aliasBody : Term :=
  .lam "x" (.glob "N") (.mtch (.var "x") (.glob "Nat")
    [.var "x", .lam "y" (.glob "Nat") (.app (.var "f") (.var "y"))])
def aliasDb : Db :=
  .lam (.glob "N") (.mtch (.var 0) (.glob "Nat") [.var 0, .lam (.glob "Nat") (.app (.var 2) (.var 0))])

/-- **C114, the guards differ.**  A parameter whose type is an abbreviation: the first guard does not unfold it and
refuses, the second unfolds it and accepts. -/
theorem C114_alias_fails : toDb ["f"] aliasBody = .ok aliasDb ∧ checkTermination listDecls "f" aliasBody = false ∧
    ∀ whnf : Db → Db, whnf (.glob "N") = .glob "Nat" → checkTerminates listDecls whnf 0 aliasDb = true := by
  refine ⟨rfl, by decide +kernel, ?_⟩
  intro w h
  have hl : locate listDecls w 1 aliasDb = some ("Nat", 0, .mtch (.var 0) (.glob "Nat")
      [.var 0, .lam (.glob "Nat") (.app (.var 2) (.var 0))]) := by
    simp [locate, aliasDb, Db.doms, h, Db.indName, listDecls, Db.under, Db.scrutinee, levelOf, choose, Db.peel]
    rfl
  simp only [checkTerminates, hl]
  decide +kernel

private theorem okR {α β : Type} (a : α) (f : α → Except ReErr β) : (Except.ok a >>= f) = f a := rfl

/-- **C114, the flaw.**  The second kernel gives the closed term of C113 the type `False` as well, and the cross-check
reports that the two kernels agree on it.  It holds for every head-normaliser that leaves six normal types alone and
contracts one redex, every subtyping that finds three types below themselves, and every comparison that finds `False`
equal to itself. -/
theorem C114_false_fails (S : Second) (norm : Ctx → Term → Term) (slow : Ctx → Term → Term → Bool)
    (hD : S.decls = listDecls) (hG : S.globals = listCtx.globals)
    (list : Db) (hlist : list = .app (.glob "TList") (.glob "Nat"))
    (fixed : ∀ t, t = .sort .prop ∨ t = .sort (.type 0) ∨ t = list ∨ t = .pi list (.glob "False") ∨
      t = .pi list (.pi list (.glob "False")) ∨ (∃ b, t = .pi (.sort (.type 0)) b) → S.whnf t = t)
    (beta : ∀ x, S.whnf (.app (.lam list (.pi list (.glob "False"))) x) = .pi list (.glob "False"))
    (refl : ∀ Γ t, t = list ∨ t = .glob "False" ∨ t = .sort (.type 0) → S.sub Γ t t = true)
    (same : S.eq [] (.glob "False") (.glob "False") = true)
    (normal : ∀ c t, t = numList ∨ t = toFalse ∨ t = .sort .prop ∨ t = .sort (.type 0) → norm c t = t) :
    secondType S 10 falseProof = .ok (.glob "False") ∧
      doubleCheck S (kernelType listDecls norm slow 10 3 listCtx falseProof) (secondType S 10 falseProof) = .agreed := by
  have h2 : secondType S 10 falseProof = .ok (.glob "False") := by
    have hc : checkTerminates listDecls S.whnf 0 loopDb = true := by
      have := C114_same_partial listDecls S.whnf "f" [("l", numList)] (.mtch (.var "l") toFalse
        [.lam "y" numList selfCall, .lam "h" (.glob "Nat") (.lam "t" numList (.lam "y" numList selfCall))]) [] loopDb
        (by intro x a b h; cases h) loop_toDb (by simp) (by
          intro e he Δ A h
          simp only [List.mem_singleton] at he
          subst he
          simp only [numList, toDb, okR, Except.ok.injEq] at h
          subst h
          exact fixed _ (by simp [hlist])) (by
          intro e he ty h _
          simp only [List.mem_singleton] at he
          subst he
          cases h with
          | app h =>
            cases h
            simp [listDecls, lams, CasesFit, CasesFitL, numList, toFalse, selfCall])
      rw [show ([] : List String).length = 0 from rfl] at this
      rw [this]
      decide +kernel
    have e1 : (Universe.type 0).mkIMax .prop = .prop := by decide +kernel
    have g1 : S.globals "TList" = some (.pi "A" (.sort (.type 0)) (.sort (.type 0))) := by rw [hG]; simp [listCtx, listDecls]
    have g2 : S.globals "Nat" = some (.sort (.type 0)) := by rw [hG]; simp [listCtx, listDecls]
    have g3 : S.globals "False" = some (.sort .prop) := by rw [hG]; simp [listCtx, listDecls]
    have g4 : S.globals "TNil" = some (.pi "A" (.sort (.type 0)) (.app (.glob "TList") (.var "A"))) := by
      rw [hG]; simp [listCtx, listDecls]
    have g5 : S.globals "TCons" = some (.pi "A" (.sort (.type 0)) (.pi "_" (.var "A") (.pi "_" (.app (.glob "TList") (.var "A"))
          (.app (.glob "TList") (.var "A"))))) := by
      rw [hG]; simp [listCtx, listDecls, List.lookup]
    have f1 := fixed (.sort .prop) (by simp)
    have f2 := fixed (.sort (.type 0)) (by simp)
    have f3 := fixed list (by simp)
    have f4 := fixed (.pi list (.glob "False")) (by simp)
    have f5 := fixed (.pi list (.pi list (.glob "False"))) (by simp)
    have f6 : ∀ b, S.whnf (.pi (.sort (.type 0)) b) = .pi (.sort (.type 0)) b := fun b => fixed _ (by simp)
    have r1 := fun Γ => refl Γ list (by simp)
    have r2 := fun Γ => refl Γ (.glob "False") (by simp)
    have r3 := fun Γ => refl Γ (.sort (.type 0)) (by simp)
    have hdb : toDb [] falseProof = .ok (.app (.app (.fix loopDb) (.app (.glob "TNil") (.glob "Nat")))
      (.app (.glob "TNil") (.glob "Nat"))) := rfl
    subst hlist
    simp only [secondType, hdb, okR]
    simp [dinfer, dinferFix, hD, hc]
    simp [loopDb, dfixType, dreturn, deffective, dinferMatch, dcheckCases, dcheckCase, dcaseType, instParams, Db.piDoms, varType, subOr,
      dinfer, okR, Db.asSort, Db.spineArgs, Db.indName, betaOpen, shift, dsubst, toDb, lookup, hD, g1, g2, g3, g4, g5, e1, f1, f2, f3,
      f4, f5, f6, r1, r2, r3, beta, listDecls, Decls.numParams, countPi, fromDb]
  refine ⟨h2, ?_⟩
  rw [h2, C113_false_fails norm slow normal]
  simp [doubleCheck, toDb, same]

/-- A second kernel that contracts a function applied, and finds equal what is the same. -/
noncomputable def plainSecond : Second where
  decls := listDecls
  globals := listCtx.globals
  whnf
    | .app (.lam _ b) a => betaOpen b a
    | t => t
  sub _ a b := @decide (a = b) (Classical.propDecidable _)
  eq _ a b := @decide (a = b) (Classical.propDecidable _)

example (slow : Ctx → Term → Term → Bool) : secondType plainSecond 10 falseProof = .ok (.glob "False") ∧
    doubleCheck plainSecond (kernelType listDecls (fun _ t => t) slow 10 3 listCtx falseProof)
      (secondType plainSecond 10 falseProof) = .agreed := by
  refine C114_false_fails plainSecond _ slow rfl rfl _ rfl ?_ ?_ ?_ ?_ ?_
  · rintro t (rfl | rfl | rfl | rfl | rfl | ⟨b, rfl⟩) <;> rfl
  · intro x
    simp [plainSecond, betaOpen, dsubst, shift]
  · intro Γ t _
    simp [plainSecond]
  · simp [plainSecond]
  · intros; rfl

/-- **C114, the flaw.**  The cross-check reports agreement on a term that both kernels refuse: a variable that nothing
binds. -/
theorem C114_agreed_fails (S : Second) (R : Rest) (n : Nat) (G : String → Option Term) :
    inferType R (n + 1) ⟨fun _ => none, G⟩ (.var "x") = .error .unbound ∧ secondType S (n + 1) (.var "x") = .error .ill ∧
      doubleCheck S (inferType R (n + 1) ⟨fun _ => none, G⟩ (.var "x")) (secondType S (n + 1) (.var "x")) = .agreed :=
  ⟨rfl, rfl, rfl⟩

/-- **C114.**  When the first kernel accepts and the cross-check reports agreement, the second has accepted too, with a
type that its comparison finds equal. -/
theorem C114_agreed_partial (S : Second) (main : Except KErr Term) (second : Except ReErr Term) (a : Term)
    (hm : main = .ok a) (h : doubleCheck S main second = .agreed) :
    ∃ b A B, second = .ok b ∧ toDb [] a = .ok A ∧ toDb [] b = .ok B ∧ S.eq [] A B = true := by
  subst hm
  cases second with
  | error e => cases e <;> simp [doubleCheck] at h
  | ok b =>
    simp only [doubleCheck] at h
    cases ha : toDb [] a with
    | error e => simp [ha] at h
    | ok A =>
      cases hb : toDb [] b with
      | error e => simp [ha, hb] at h
      | ok B =>
        simp only [ha, hb] at h
        by_cases q : S.eq [] A B = true
        · exact ⟨b, A, B, rfl, rfl, hb, q⟩
        · simp [q] at h

example : doubleCheck plainSecond (.ok (.glob "Nat")) (.ok (.glob "Nat")) = .agreed := by
  simp [doubleCheck, toDb, plainSecond]

end Verif.Props
