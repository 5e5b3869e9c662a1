import Verif.Lang.Dce
import Verif.Lang.DceSpec
import Verif.Lang.Effects

/-! # What dead code elimination keeps -/
namespace Verif.Lang

/-! ## The tracking loop finds the assignments overwritten before anything needs them -/

/-- Whether an assignment of `x` is dead, given the statements after it. -/
def willDie (x : Sym) : List Stmt → Bool
  | [] => false
  | st :: rest =>
    if (readsS st).contains x then false
    else match st with
      | .set y e => analyzable e && (y == x || willDie x rest)
      | .ifS _ _ _ | .whileS _ _ | .repeatS _ _ _ | .callS _ _ => false
      | _ => willDie x rest

/-- Whether the statement is a dead assignment, given the statements after it. -/
def deadSet (st : Stmt) (rest : List Stmt) : Bool :=
  match st with
  | .set x e => analyzable e && willDie x rest
  | _ => false

/-- Whether the statement at a position is a dead assignment. -/
def deadAt : List Stmt → Nat → Bool
  | [], _ => false
  | st :: rest, 0 => deadSet st rest
  | _ :: rest, k + 1 => deadAt rest k

theorem scan_dead : ∀ (ss : List Stmt) (tr : Track) (i : Nat) (j : Nat),
    j ∈ (tr.scan i ss).dead ↔
      j ∈ tr.dead ∨ (∃ x, tr.last x = some j ∧ willDie x ss = true) ∨
        (i ≤ j ∧ deadAt ss (j - i) = true)
  | [], tr, i, j => by simp [Track.scan, willDie, deadAt]
  | st :: rest, tr, i, j => by
    simp only [Track.scan]
    rw [scan_dead rest (tr.step i st) (i + 1) j]
    have hsplit : (i ≤ j ∧ deadAt (st :: rest) (j - i) = true) ↔
        (j = i ∧ deadSet st rest = true) ∨ (i + 1 ≤ j ∧ deadAt rest (j - (i + 1)) = true) := by
      constructor
      · rintro ⟨h1, h2⟩
        rcases Nat.eq_or_lt_of_le h1 with rfl | h
        · left; simpa [deadAt] using h2
        · right
          refine ⟨h, ?_⟩
          have : j - i = (j - (i + 1)) + 1 := by omega
          rw [this] at h2
          exact h2
      · rintro (⟨rfl, h⟩ | ⟨h1, h2⟩)
        · exact ⟨Nat.le_refl _, by simpa [deadAt] using h⟩
        · refine ⟨by omega, ?_⟩
          have : j - i = (j - (i + 1)) + 1 := by omega
          rw [this]
          exact h2
    rw [hsplit]
    have other : ∀ (hs : deadSet st rest = false)
        (hstep : (tr.step i st).dead = tr.dead ∧ ∀ x, (tr.step i st).last x =
          if (readsS st).contains x then none else tr.last x)
        (hw : ∀ x, willDie x (st :: rest) = if (readsS st).contains x then false else willDie x rest),
        (j ∈ (tr.step i st).dead ∨ (∃ x, (tr.step i st).last x = some j ∧ willDie x rest = true) ∨
          (i + 1 ≤ j ∧ deadAt rest (j - (i + 1)) = true)) ↔
        (j ∈ tr.dead ∨ (∃ x, tr.last x = some j ∧ willDie x (st :: rest) = true) ∨
          ((j = i ∧ deadSet st rest = true) ∨ (i + 1 ≤ j ∧ deadAt rest (j - (i + 1)) = true))) := by
      intro hs hstep hw
      rw [hstep.1, hs]
      have : (∃ x, (tr.step i st).last x = some j ∧ willDie x rest = true) ↔
          (∃ x, tr.last x = some j ∧ willDie x (st :: rest) = true) := by
        apply exists_congr
        intro x
        rw [hstep.2, hw]
        split <;> simp
      rw [this]
      simp
    have clear : ∀ (hs : deadSet st rest = false)
        (hstep : (tr.step i st).dead = tr.dead ∧ ∀ x, (tr.step i st).last x = none)
        (hw : ∀ x, willDie x (st :: rest) = false),
        (j ∈ (tr.step i st).dead ∨ (∃ x, (tr.step i st).last x = some j ∧ willDie x rest = true) ∨
          (i + 1 ≤ j ∧ deadAt rest (j - (i + 1)) = true)) ↔
        (j ∈ tr.dead ∨ (∃ x, tr.last x = some j ∧ willDie x (st :: rest) = true) ∨
          ((j = i ∧ deadSet st rest = true) ∨ (i + 1 ≤ j ∧ deadAt rest (j - (i + 1)) = true))) := by
      intro hs hstep hw
      rw [hstep.1, hs]
      simp [hstep.2, hw]
    cases st with
    | set y e =>
      cases ha : analyzable e with
      | false =>
        refine clear (by simp [deadSet, ha]) ⟨by simp [Track.step, ha], by simp [Track.step, ha]⟩ ?_
        intro x
        simp [willDie, ha]
      | true =>
        have hw : ∀ x, willDie x (.set y e :: rest) =
            if (readsE e).contains x then false else (y == x || willDie x rest) := by
          intro x; simp [willDie, ha, readsS]
        have hd : deadSet (.set y e) rest = willDie y rest := by simp [deadSet, ha]
        have hlast : ∀ x, (tr.step i (.set y e)).last x =
            if x = y then some i else if (readsE e).contains x then none else tr.last x := by
          intro x; unfold Track.step; simp only [ha, if_true]; rfl
        have hdead : (tr.step i (.set y e)).dead =
            match (if (readsE e).contains y then none else tr.last y) with
            | some j => j :: tr.dead
            | none => tr.dead := by
          unfold Track.step; simp only [ha, if_true]; rfl
        simp only [hlast, hdead, hw, hd]
        constructor
        · rintro (h | ⟨x, h1, h2⟩ | h)
          · split at h
            · rename_i k hk
              simp only [List.mem_cons] at h
              rcases h with rfl | h
              · right; left
                refine ⟨y, ?_⟩
                by_cases hc : (readsE e).contains y = true
                · rw [if_pos hc] at hk; cases hk
                · rw [if_neg hc] at hk
                  refine ⟨hk, ?_⟩
                  rw [if_neg hc]; simp
              · exact .inl h
            · exact .inl h
          · split at h1
            · rename_i hx
              subst hx
              cases h1
              exact .inr (.inr (.inl ⟨rfl, h2⟩))
            · by_cases hc : (readsE e).contains x = true
              · rw [if_pos hc] at h1; cases h1
              · rw [if_neg hc] at h1
                refine .inr (.inl ⟨x, h1, ?_⟩)
                rw [if_neg hc]; simp [h2]
          · exact .inr (.inr (.inr h))
        · rintro (h | ⟨x, h1, h2⟩ | ⟨rfl, h⟩ | h)
          · left
            split
            · simp [h]
            · exact h
          · by_cases hc : (readsE e).contains x = true
            · rw [if_pos hc] at h2; cases h2
            · rw [if_neg hc] at h2
              by_cases hx : x = y
              · left
                subst hx
                rw [if_neg hc, h1]
                simp
              · right; left
                refine ⟨x, ?_, ?_⟩
                · rw [if_neg hx, if_neg hc]; exact h1
                · have : (y == x) = false := by simpa using fun h => hx h.symm
                  simpa [this] using h2
          · exact .inr (.inl ⟨y, by simp, h⟩)
          · exact .inr (.inr h)
    | ifS c t e => exact clear rfl ⟨rfl, fun _ => rfl⟩ (fun x => by simp [willDie])
    | whileS c b => exact clear rfl ⟨rfl, fun _ => rfl⟩ (fun x => by simp [willDie])
    | repeatS z c b => exact clear rfl ⟨rfl, fun _ => rfl⟩ (fun x => by simp [willDie])
    | callS f args => exact clear rfl ⟨rfl, fun _ => rfl⟩ (fun x => by simp [willDie])
    | _ => exact other rfl ⟨rfl, fun _ => rfl⟩ (fun x => rfl)

theorem deadOf_iff (ss : List Stmt) (j : Nat) : (deadOf ss).contains j = deadAt ss j := by
  have := scan_dead ss {} 0 j
  simp only [List.not_mem_nil, reduceCtorEq, false_and, exists_false, Nat.zero_le, Nat.sub_zero,
    true_and, false_or] at this
  rw [Bool.eq_iff_iff, ← this]
  simp [deadOf]

/-- The block without its dead assignments, each statement treated, not yet cut after a
`Return`. -/
def dceRec : List Stmt → List Stmt
  | [] => []
  | st :: rest => (if deadSet st rest then [] else elimS st) ++ dceRec rest

theorem dropDead_eq (dead : List Nat) : ∀ (ss : List Stmt) (i : Nat),
    (∀ k, dead.contains (i + k) = deadAt ss k) →
    (dropDead dead i (elimSs ss)).flatten = dceRec ss
  | [], i, _ => rfl
  | st :: rest, i, h => by
    have h0 := h 0
    simp only [Nat.add_zero, deadAt] at h0
    have ih := dropDead_eq dead rest (i + 1) (fun k => by
      have := h (k + 1)
      simp only [deadAt] at this
      rw [← this]; exact congrArg _ (by omega))
    simp only [elimSs, dropDead, List.flatten_cons, ih, dceRec, h0]

theorem dceBlock_eq (ss : List Stmt) : dceBlock ss = truncRet (dceRec ss) := by
  unfold dceBlock assemble
  rw [dropDead_eq _ ss 0 (fun k => by rw [Nat.zero_add]; exact deadOf_iff ss k)]

theorem truncRet_execs (I : Inst) (n : Nat) : ∀ (ss : List Stmt) (s : State),
    execs I n (truncRet ss) s = execs I n ss s
  | [], s => rfl
  | st :: ss, s => by
    have key : ∀ (h : truncRet (st :: ss) = st :: truncRet ss),
        execs I n (truncRet (st :: ss)) s = execs I n (st :: ss) s := by
      intro h
      rw [h]
      simp only [execs]
      congr 1
      funext fl s'
      cases fl <;> simp only
      exact truncRet_execs I n ss s'
    cases st with
    | ret e =>
      simp only [truncRet, execs]
      cases e with
      | none => simp [exec]
      | some e =>
        simp only [exec]
        rcases evalE I e s with ⟨r, s'⟩
        cases r <;> simp [Res.bind]
    | _ => exact key rfl

theorem execs_append (I : Inst) (n : Nat) : ∀ (a b : List Stmt) (s : State),
    execs I n (a ++ b) s = (execs I n a s).bind fun fl s' =>
      match fl with
      | .cont => execs I n b s'
      | other => (.ok other, s')
  | [], b, s => by simp [execs]
  | st :: a, b, s => by
    simp only [List.cons_append, execs]
    rcases exec I n st s with ⟨r, s'⟩
    cases r with
    | error e => simp [Res.bind]
    | ok fl =>
      cases fl with
      | cont => simpa [Res.bind] using execs_append I n a b s'
      | brk => simp [Res.bind]
      | ret v => simp [Res.bind]

/-! ## The specification's words -/

mutual
theorem callFree_eq : ∀ e : Expr, callFree e = analyzable e
  | .lit _ | .var _ | .call _ _ | .callv _ _ | .closure _ _ => by simp [callFree, analyzable]
  | .bin _ a b | .index a b => by simp [callFree, analyzable, callFree_eq a, callFree_eq b]
  | .not a | .length a => by simp [callFree, analyzable, callFree_eq a]
  | .list es => by simp [callFree, analyzable, callFrees_eq es]

theorem callFrees_eq : ∀ es : List Expr, callFrees es = analyzables es
  | [] => rfl
  | e :: es => by simp [callFrees, analyzables, callFree_eq e, callFrees_eq es]
end

mutual
theorem occursE_eq (x : Sym) : ∀ e : Expr, occursE x e = (readsE e).contains x
  | .lit _ | .closure _ _ => by simp [occursE, readsE]
  | .var y => by simp only [occursE, readsE, List.contains_cons, List.contains_nil, Bool.or_false]
  | .bin _ a b | .index a b => by
    simp [occursE, readsE, occursE_eq x a, occursE_eq x b]
  | .not a | .length a => by simp [occursE, readsE, occursE_eq x a]
  | .call _ es | .list es => by simp [occursE, readsE, occursEs_eq x es]
  | .callv c es => by simp [occursE, readsE, occursE_eq x c, occursEs_eq x es]

theorem occursEs_eq (x : Sym) : ∀ es : List Expr, occursEs x es = (readsEs es).contains x
  | [] => by simp [occursEs, readsEs]
  | e :: es => by simp [occursEs, readsEs, occursE_eq x e, occursEs_eq x es]
end

/-- The statements after an assignment of `x` pass it by until the next. -/
inductive GoodScan (x : Sym) : List Stmt → Prop where
  | here {e : Expr} {rest : List Stmt} : analyzable e = true → x ∉ readsE e →
      GoodScan x (.set x e :: rest)
  | skip {st : Stmt} {rest : List Stmt} : passes x st = true → x ∉ readsS st → GoodScan x rest →
      GoodScan x (st :: rest)

theorem willDie_split (x : Sym) : ∀ ss : List Stmt, willDie x ss = true →
    ∃ mid e post, ss = mid ++ .set x e :: post ∧ analyzable e = true ∧ x ∉ readsE e ∧
      (∀ st ∈ mid, x ∉ readsS st ∧ needs x st = false)
  | [], h => by simp [willDie] at h
  | st :: rest, h => by
    have next : ∀ (h1 : willDie x rest = true) (h2 : x ∉ readsS st) (h3 : needs x st = false),
        ∃ mid e post, st :: rest = mid ++ .set x e :: post ∧ analyzable e = true ∧ x ∉ readsE e ∧
        (∀ st ∈ mid, x ∉ readsS st ∧ needs x st = false) := by
      intro h1 h2 h3
      obtain ⟨mid, e, post, rfl, h4, h5, h6⟩ := willDie_split x rest h1
      refine ⟨st :: mid, e, post, rfl, h4, h5, ?_⟩
      intro st' hst'
      rcases List.mem_cons.1 hst' with rfl | h
      · exact ⟨h2, h3⟩
      · exact h6 st' h
    simp only [willDie] at h
    split at h
    · cases h
    · rename_i hc
      have hc' : x ∉ readsS st := by simpa using hc
      cases st with
      | set y e =>
        simp only [Bool.and_eq_true, Bool.or_eq_true, beq_iff_eq] at h
        rcases h.2 with rfl | h2
        · exact ⟨[], e, rest, rfl, h.1, by simpa [readsS] using hc', by simp⟩
        · refine next h2 hc' ?_
          simp only [readsS] at hc'
          simp [needs, callFree_eq, occursE_eq, h.1, hc']
      | ifS => cases h
      | whileS => cases h
      | repeatS => cases h
      | callS => cases h
      | ret e =>
        refine next h hc' ?_
        cases e <;> simp_all [needs, readsS, occursE_eq]
      | _ =>
        refine next h hc' ?_
        simp_all [needs, readsS, occursE_eq]

theorem goodScan_of {x : Sym} {ss mid post : List Stmt} {e : Expr}
    (he : analyzable e = true) (hx : x ∉ readsE e) (hss : ss = mid ++ .set x e :: post)
    (hm : ∀ st ∈ mid, x ∉ readsS st ∧ passes x st = true) : GoodScan x ss := by
  subst hss
  induction mid with
  | nil => exact .here he hx
  | cons st mid ih =>
    have := hm st (by simp)
    exact .skip this.2 this.1 (ih fun st' h' => hm st' (by simp [h']))

theorem settled_tail {st : Stmt} {ss : List Stmt} (h : settled (st :: ss)) : settled ss := by
  intro pre x e mid e' post heq
  exact h (st :: pre) x e mid e' post (by rw [heq]; rfl)

theorem settled_good {x : Sym} {e : Expr} {rest : List Stmt} (h : settled (.set x e :: rest))
    (hd : willDie x rest = true) : GoodScan x rest := by
  obtain ⟨mid, e', post, heq, h1, h2, h3⟩ := willDie_split x rest hd
  refine goodScan_of h1 h2 heq fun st hst => ⟨(h3 st hst).1, ?_⟩
  rcases h [] x e mid e' post (by rw [heq]; rfl) with ⟨st', hm, hn⟩ | hp
  · rw [(h3 st' hm).2] at hn; cases hn
  · exact hp st hst

end Verif.Lang
