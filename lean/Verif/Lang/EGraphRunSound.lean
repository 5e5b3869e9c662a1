import Verif.Lang.EGraphSimplify
import Verif.Lang.EGraphRun

/-!
# Runs of statements: proofs
-/
namespace Verif.Lang.EGraph

/-! ## Execution -/

/-- All statements, one after the other. -/
def steps (R : Prog) : List RS → RState → Except Err RState
  | [], s => .ok s
  | t :: ts, s => (stepS R s t).bind (steps R ts)

theorem stepS_ret {R : Prog} {s s' : RState} {t : RS} (h : stepS R s t = .ok s')
    (ht : ∀ e, t ≠ .ret e) : s'.ret = s.ret := by
  cases t with
  | ret e => exact absurd rfl (ht e)
  | letE x e =>
    simp only [stepS] at h
    cases h1 : evalX (R.world s.vars) e <;> simp only [h1, Except.bind] at h <;> cases h; rfl
  | showE e =>
    simp only [stepS] at h
    cases h1 : evalX (R.world s.vars) e <;> simp only [h1, Except.bind] at h <;> cases h; rfl
  | assertE e =>
    simp only [stepS] at h
    cases h1 : evalX (R.world s.vars) e <;> simp only [h1, Except.bind] at h
    · cases h
    · split at h <;> cases h; rfl
  | setE x e =>
    simp only [stepS] at h
    cases h1 : evalX (R.world s.vars) e <;> simp only [h1, Except.bind] at h
    · cases h
    cases h2 : readVar s.vars x <;> simp only [h2] at h <;> cases h; rfl
  | push e x =>
    simp only [stepS] at h
    cases h1 : evalX (R.world s.vars) e <;> simp only [h1, Except.bind] at h
    · cases h
    cases h2 : readVar s.vars x <;> simp only [h2] at h
    · cases h
    split at h <;> cases h; rfl
  | setIndex x i e =>
    simp only [stepS] at h
    cases h0 : evalX (R.world s.vars) i <;> simp only [h0, Except.bind] at h
    · cases h
    cases h1 : evalX (R.world s.vars) e <;> simp only [h1] at h
    · cases h
    cases h2 : readVar s.vars x <;> simp only [h2] at h
    · cases h
    split at h <;> cases h; rfl
  | call f args =>
    simp only [stepS] at h
    cases h1 : evalArgs (R.world s.vars) args <;> simp only [h1, Except.bind] at h
    · cases h
    split at h <;> cases h; rfl

theorem NoDeadCode.tail {t : RS} {ts : List RS} (h : NoDeadCode (t :: ts)) : NoDeadCode ts := by
  intro pre e post he
  exact h (t :: pre) e post (by rw [he]; rfl)

theorem exec_steps {R : Prog} {run : List RS} (hd : NoDeadCode run) {s s' : RState}
    (hr : s.ret = none) : exec R run s = (s', none) ↔ steps R run s = .ok s' := by
  induction run generalizing s with
  | nil => simp [exec, steps]
  | cons t ts ih =>
    simp only [exec, steps]
    cases h : stepS R s t with
    | error e => simp [Except.bind]
    | ok s1 =>
      simp only [Except.bind]
      split
      · rename_i hs
        have : ts = [] := by
          cases t with
          | ret e => exact hd [] e ts rfl
          | _ =>
            rw [stepS_ret h (by intro e; simp), hr] at hs
            cases hs
        subst this
        simp [steps]
      · rename_i hs
        exact ih hd.tail (by simpa using hs)

theorem exec_append {R : Prog} {a b : List RS} {s s1 : RState} (h : exec R a s = (s1, none))
    (hr : s1.ret = none) : exec R (a ++ b) s = exec R b s1 := by
  induction a generalizing s with
  | nil => simp only [exec, Prod.mk.injEq, and_true] at h; rw [h]; rfl
  | cons t ts ih =>
    simp only [exec, List.cons_append] at h ⊢
    cases h1 : stepS R s t with
    | error e => simp [h1] at h
    | ok s2 =>
      simp only [h1] at h ⊢
      split at h
      · rename_i hs
        simp only [Prod.mk.injEq, and_true] at h
        subst h
        rw [hr] at hs
        cases hs
      · rename_i hs
        rw [if_neg hs]
        exact ih h

/-- Equal results of the expressions give an equal step. -/
theorem stepS_congr {R : Prog} {s : RState} {t : RS} {es : List XE}
    (h : List.Forall₂ (fun a b => evalX (R.world s.vars) a = evalX (R.world s.vars) b) es
      (exprsOf t)) : stepS R s (rebuildStmt t es) = stepS R s t := by
  cases t with
  | setIndex x i e =>
    simp only [exprsOf] at h
    cases h with
    | cons h1 h2 => cases h2 with
      | cons h2 h3 =>
        cases h3
        simp only [rebuildStmt, stepS, h1, h2]
  | call f args =>
    simp only [exprsOf] at h
    have : evalArgs (R.world s.vars) es = evalArgs (R.world s.vars) args := by
      induction h with
      | nil => rfl
      | cons h1 _ ih => simp only [evalArgs, h1, ih]
    simp only [rebuildStmt, stepS, this]
  | _ =>
    simp only [exprsOf] at h
    cases h with
    | cons h1 h2 =>
      cases h2
      simp only [rebuildStmt, stepS, h1]

/-! ## Versions -/

theorem versionOf_bump (c : Conv) (x y : Sym) :
    (c.bump x).versionOf y = if y = x then c.versionOf x + 1 else c.versionOf y := by
  simp only [Conv.bump, Conv.versionOf, List.lookup_cons]
  by_cases h : y = x
  · simp [h]
  · simp [h, beq_false_of_ne h]

theorem bump_le (c : Conv) (x y : Sym) : c.versionOf y ≤ (c.bump x).versionOf y := by
  rw [versionOf_bump]; split
  · rename_i h; rw [h]; omega
  · exact Nat.le_refl _

theorem foldl_bump_le (l : List Sym) (c : Conv) (y : Sym) :
    c.versionOf y ≤ (l.foldl Conv.bump c).versionOf y := by
  induction l generalizing c with
  | nil => exact Nat.le_refl _
  | cons x l ih => exact Nat.le_trans (bump_le c x y) (ih _)

theorem foldl_bump_lt {l : List Sym} {c : Conv} {y : Sym} (h : y ∈ l) :
    c.versionOf y < (l.foldl Conv.bump c).versionOf y := by
  induction l generalizing c with
  | nil => cases h
  | cons x l ih =>
    rcases List.mem_cons.1 h with rfl | h
    · refine Nat.lt_of_lt_of_le ?_ (foldl_bump_le l (c.bump y) y)
      rw [versionOf_bump]; simp
    · exact Nat.lt_of_le_of_lt (bump_le c x y) (ih h)

theorem foldl_bump_frame (l : List Sym) (c : Conv) : (l.foldl Conv.bump c).eg = c.eg ∧
    (l.foldl Conv.bump c).opaques = c.opaques ∧ (l.foldl Conv.bump c).pending = c.pending ∧
    (l.foldl Conv.bump c).collReads = c.collReads ∧
    (l.foldl Conv.bump c).suppressed = c.suppressed := by
  induction l generalizing c with
  | nil => exact ⟨rfl, rfl, rfl, rfl, rfl⟩
  | cons x l ih => exact ih (c.bump x)

/-! ## Reads -/

theorem seed_reads (F : Nat → SiteFact) (e : XE) (stable : Bool) (r : Nat × Conv) :
    (Conv.seedFacts F e stable r).2.collReads = r.2.collReads := by
  unfold Conv.seedFacts
  dsimp only
  split
  · split <;> split <;> rfl
  · rfl
theorem opaq_reads (c : Conv) (e : XE) (l : Bool) : (c.opaq e l).2.collReads = c.collReads := by
  unfold Conv.opaq; dsimp only; split <;> rfl
theorem track_reads (F : Nat → SiteFact) (s : Nat) (r : Nat × Conv) :
    (Conv.trackVar F s r).2.collReads = r.2.collReads := by
  unfold Conv.trackVar; dsimp only; split <;> rfl
theorem stage_reads (F : Nat → SiteFact) (e : XE) (r : Nat × Conv) :
    (Conv.stageLen F e r).2.collReads = r.2.collReads := by
  unfold Conv.stageLen
  dsimp only
  split
  · rfl
  · split <;> rfl
theorem copy_reads (n : Nat) (r : Nat × Conv) :
    (Conv.copyFact n r).2.collReads = r.2.collReads := by
  unfold Conv.copyFact; dsimp only; split
  · rfl
  · split <;> rfl
theorem add_reads (c : Conv) (n : ENode) : (c.add n).2.collReads = c.collReads := rfl

theorem noteRead_reads (c : Conv) (e : XE) :
    (∀ y ∈ c.collReads, y ∈ (c.noteRead e).collReads) ∧
      ∀ y ∈ nameOf e, y ∈ (c.noteRead e).collReads := by
  unfold Conv.noteRead nameOf
  split
  · split
    · rename_i x h
      refine ⟨fun _ h => h, ?_⟩
      intro y hy
      simp only [List.mem_cons, List.not_mem_nil, or_false] at hy
      subst hy
      simpa using h
    · refine ⟨fun y hy => List.mem_cons_of_mem _ hy, ?_⟩
      intro y hy
      simp only [List.mem_cons, List.not_mem_nil, or_false] at hy
      subst hy
      simp
  · rename_i hne
    refine ⟨fun _ h => h, ?_⟩
    intro y hy
    split at hy
    · exact absurd rfl (hne _ _)
    · cases hy

theorem toNode_reads (F : Nat → SiteFact) (e : XE) (c : Conv) :
    (∀ y ∈ c.collReads, y ∈ (Conv.toNode F e c).2.collReads) ∧
      ∀ y ∈ contentReads e, y ∈ (Conv.toNode F e c).2.collReads := by
  induction e generalizing c with
  | num | bool | flt =>
    simp only [Conv.toNode, seed_reads, add_reads, contentReads]
    exact ⟨fun _ h => h, fun _ h => by cases h⟩
  | var =>
    simp only [Conv.toNode, seed_reads, track_reads, add_reads, contentReads]
    exact ⟨fun _ h => h, fun _ h => by cases h⟩
  | other =>
    simp only [Conv.toNode, seed_reads, opaq_reads, contentReads]
    exact ⟨fun _ h => h, fun _ h => by cases h⟩
  | bin s op a b iha ihb =>
    simp only [Conv.toNode, contentReads]
    have ho : Conv.opaqueOp op = true ↔
        op ∈ [BinOp.exactDiv, .seqConcat, .approxEq, .bitAnd, .bitOr, .pow, .floorDiv] := by
      cases op <;> simp [Conv.opaqueOp]
    by_cases h : Conv.opaqueOp op = true
    · rw [if_pos h, if_pos (ho.1 h), seed_reads, opaq_reads]
      exact ⟨fun _ h => h, fun _ h => by cases h⟩
    · rw [if_neg h, if_neg (fun hc => h (ho.2 hc)), seed_reads, add_reads]
      refine ⟨fun y hy => (ihb _).1 y ((iha c).1 y hy), fun y hy => ?_⟩
      rcases List.mem_append.1 hy with hy | hy
      · exact (ihb _).1 y ((iha c).2 y hy)
      · exact (ihb _).2 y hy
  | not s a iha =>
    simp only [Conv.toNode, seed_reads, add_reads, contentReads]
    exact iha c
  | index s a b iha ihb | contains s a b iha ihb =>
    simp only [Conv.toNode, seed_reads, add_reads, contentReads]
    refine ⟨fun y hy => (ihb _).1 y ((iha _).1 y ((noteRead_reads c a).1 y hy)), fun y hy => ?_⟩
    rcases List.mem_append.1 hy with hy | hy
    · exact (ihb _).1 y ((iha _).1 y ((noteRead_reads c a).2 y hy))
    rcases List.mem_append.1 hy with hy | hy
    · exact (ihb _).1 y ((iha _).2 y hy)
    · exact (ihb _).2 y hy
  | length s a iha =>
    simp only [Conv.toNode, seed_reads, stage_reads, add_reads, contentReads]
    refine ⟨fun y hy => (iha _).1 y ((noteRead_reads c a).1 y hy), fun y hy => ?_⟩
    rcases List.mem_append.1 hy with hy | hy
    · exact (iha _).1 y ((noteRead_reads c a).2 y hy)
    · exact (iha _).2 y hy
  | copy s a iha =>
    simp only [Conv.toNode, seed_reads, copy_reads, add_reads, contentReads]
    refine ⟨fun y hy => (iha _).1 y ((noteRead_reads c a).1 y hy), fun y hy => ?_⟩
    rcases List.mem_append.1 hy with hy | hy
    · exact (iha _).1 y ((noteRead_reads c a).2 y hy)
    · exact (iha _).2 y hy
  | slice s a b d iha ihb ihd =>
    simp only [Conv.toNode, seed_reads, add_reads, contentReads]
    refine ⟨fun y hy => (ihd _).1 y ((ihb _).1 y ((iha _).1 y ((noteRead_reads c a).1 y hy))),
      fun y hy => ?_⟩
    rcases List.mem_append.1 hy with hy | hy
    · exact (ihd _).1 y ((ihb _).1 y ((iha _).1 y ((noteRead_reads c a).2 y hy)))
    rcases List.mem_append.1 hy with hy | hy
    · exact (ihd _).1 y ((ihb _).1 y ((iha _).2 y hy))
    rcases List.mem_append.1 hy with hy | hy
    · exact (ihd _).1 y ((ihb _).2 y hy)
    · exact (ihd _).2 y hy

/-! ## The expressions of one statement -/

theorem sites_frame (F : Nat → SiteFact) (es : List XE) (c : Conv) :
    Same (convertSites F es c).2 c ∧ c.opaques <+: (convertSites F es c).2.opaques ∧
      (∀ y ∈ c.collReads, y ∈ (convertSites F es c).2.collReads) ∧
      ∀ y ∈ es.flatMap contentReads, y ∈ (convertSites F es c).2.collReads := by
  induction es generalizing c with
  | nil => exact ⟨⟨rfl, rfl⟩, List.prefix_rfl, fun _ h => h, fun _ h => by cases h⟩
  | cons e es ih =>
    simp only [convertSites, convertSite]
    obtain ⟨i1, i2, i3, i4⟩ := ih (Conv.toNode F e c).2
    refine ⟨i1.trans (toNode_same F e c), (toNode_prefix F e c).trans i2,
      fun y hy => i3 y ((toNode_reads F e c).1 y hy), fun y hy => ?_⟩
    rw [List.flatMap_cons] at hy
    rcases List.mem_append.1 hy with hy | hy
    · exact i3 y ((toNode_reads F e c).2 y hy)
    · exact i4 y hy

/-- A record of a site, at the end of the conversion. -/
structure RecOk (W : World) (M : Sem) (cF : Conv) (r : SiteRec) : Prop where
  lt : r.root < cF.eg.nodes.length
  den : den M cF.eg r.root = evalX W r.original
  leaves : Leaves W M r.admissible cF.opaques

theorem RecOk.mono {W : World} {M : Sem} {c c' : Conv} {r : SiteRec} (h : RecOk W M c r)
    (hg : Grow c.eg c'.eg) (hp : c.opaques <+: c'.opaques) (hi : r.hi ≤ c.opaques.length) :
    RecOk W M c' r :=
  ⟨Nat.lt_of_lt_of_le h.lt hg.le, (hg.den h.lt).trans h.den, h.leaves.var, fun j o hj ho =>
    h.leaves.opq j o hj (by
      simp only [SiteRec.admissible, Bool.and_eq_true, decide_eq_true_eq] at hj
      have hl : j < c.opaques.length := by omega
      obtain ⟨z, hz⟩ := hp
      rw [← hz, List.getElem?_append_left hl] at ho
      exact ho)⟩

theorem sites_ok {W : World} {M : Sem} (ha : Agrees W M) {sup : List Sym} {F : Nat → SiteFact}
    (es : List XE) (c : Conv) (h : ConvOk M c)
    (hs : ∀ e ∈ es, Truthful W sup F e ∧ KindsSafe W e ∧ SlicesSafe W e) (hv : Ctx W M sup c)
    (ho : OpqOk W M c.opaques.length (convertSites F es c).2.opaques) :
    ConvOk M (convertSites F es c).2 ∧ Grow c.eg (convertSites F es c).2.eg ∧
      List.Forall₂ (fun r e => r.original = e ∧ RecOk W M (convertSites F es c).2 r ∧
        r.hi ≤ (convertSites F es c).2.opaques.length) (convertSites F es c).1 es := by
  induction es generalizing c with
  | nil => exact ⟨h, Grow.refl _, .nil⟩
  | cons e es ih =>
    simp only [convertSites, convertSite] at ho ⊢
    obtain ⟨f1, f2, -, -⟩ := sites_frame F es (Conv.toNode F e c).2
    obtain ⟨s1, s2, s3⟩ := hs e (by simp)
    have ho1 : OpqOk W M c.opaques.length (Conv.toNode F e c).2.opaques := ho.of_prefix f2
    have st := toNode_ok ha e c h s1 s2 s3 hv ho1
    have hsame := toNode_same F e c
    have hv' : Ctx W M sup (Conv.toNode F e c).2 :=
      ⟨fun x => by rw [versionOf_congr hsame.1]; exact hv.var x, hsame.2.trans hv.sup⟩
    obtain ⟨i1, i2, i3⟩ := ih _ st.ok (fun e' he => hs e' (by simp [he])) hv'
      (ho.from (toNode_prefix F e c).length_le)
    refine ⟨i1, st.grow.trans i2, .cons ⟨rfl, ?_, f2.length_le⟩ i3⟩
    refine RecOk.mono (c := (Conv.toNode F e c).2) ⟨st.lt, st.den, ?_, ?_⟩ i2 f2 (Nat.le_refl _)
    · intro x v hx
      simp only [SiteRec.admissible, beq_iff_eq] at hx
      have := hv'.var x
      unfold Conv.versionOf at this
      rw [hx] at this
      exact this
    · intro j o hj hjo
      simp only [SiteRec.admissible, Bool.and_eq_true, decide_eq_true_eq] at hj
      exact ho1 j o hj.1 hjo

/-! ## One statement -/

/-- What a statement changes in the converter besides the graph. -/
theorem after_frame (t : RS) (rs : List SiteRec) (c : Conv) :
    (afterSites t rs c).opaques = c.opaques ∧ (afterSites t rs c).pending = c.pending ∧
      (afterSites t rs c).collReads = c.collReads ∧
      (afterSites t rs c).suppressed = c.suppressed := by
  have hb : ∀ (c : Conv), c.bumpReads.opaques = c.opaques ∧ c.bumpReads.pending = c.pending ∧
      c.bumpReads.collReads = c.collReads ∧ c.bumpReads.suppressed = c.suppressed := fun c =>
    (foldl_bump_frame c.collReads c).2
  cases t with
  | letE x e | setE x e =>
    simp only [afterSites, bindSite]
    split
    · split
      · exact ⟨rfl, rfl, rfl, rfl⟩
      · exact hb _
    · exact ⟨rfl, rfl, rfl, rfl⟩
  | showE | assertE | ret => exact ⟨rfl, rfl, rfl, rfl⟩
  | push e x => exact hb _
  | setIndex x i e => exact hb _
  | call f args => exact hb _

theorem stmt_frame (F : Nat → SiteFact) (t : RS) (c : Conv) :
    c.opaques <+: (convertStmt F t c).2.opaques ∧
      (convertStmt F t c).2.suppressed = c.suppressed ∧
      (∀ y ∈ c.collReads, y ∈ (convertStmt F t c).2.collReads) ∧
      ∀ y ∈ (exprsOf t).flatMap contentReads, y ∈ (convertStmt F t c).2.collReads := by
  obtain ⟨s1, s2, s3, s4⟩ := sites_frame F (exprsOf t) c
  obtain ⟨a1, -, a3, a4⟩ := after_frame t (convertSites F (exprsOf t) c).1
    (convertSites F (exprsOf t) c).2
  simp only [convertStmt]
  rw [a1, a3, a4]
  exact ⟨s2, s1.2, s3, s4⟩

/-- A variable whose version stays has the same value. -/
theorem stmt_versions {R : Prog} {F : Nat → SiteFact} {t : RS} {c : Conv} {s s' : RState}
    (hst : stepS R s t = .ok s')
    (ht : ∀ f args, t = .call f args → ∀ vs r, R.calls f vs s.vars = .ok r →
      ∀ x, r.1 x ≠ s.vars x → x ∈ (convertStmt F t c).2.collReads) (y : Sym) :
    c.versionOf y ≤ (convertStmt F t c).2.versionOf y ∧
      (c.versionOf y = (convertStmt F t c).2.versionOf y → s'.vars y = s.vars y) := by
  obtain ⟨⟨f1, f2⟩, -⟩ := sites_frame F (exprsOf t) c
  have hv := versionOf_congr f1 y
  have hset : ∀ (v : Value) (x : Sym), y ≠ x → setVar s.vars x v y = s.vars y := by
    intro v x h; simp [setVar, h]
  have key : ∀ (x : Sym) (d : Conv), (∀ z, ((convertSites F (exprsOf t) c).2.bump x).versionOf z ≤
      d.versionOf z) → (∃ v, s'.vars = setVar s.vars x v) →
      c.versionOf y ≤ d.versionOf y ∧ (c.versionOf y = d.versionOf y → s'.vars y = s.vars y) := by
    intro x d hd ⟨v, hs⟩
    have h1 := hd y
    rw [versionOf_bump] at h1
    by_cases h : y = x
    · subst h
      rw [if_pos rfl, hv] at h1
      exact ⟨by omega, by omega⟩
    · rw [if_neg h, hv] at h1
      exact ⟨h1, fun _ => by rw [hs]; exact hset v x h⟩
  have hbr : ∀ (d : Conv) z, d.versionOf z ≤ d.bumpReads.versionOf z := fun d z =>
    foldl_bump_le _ d z
  have hbind : ∀ x, (∃ v, s'.vars = setVar s.vars x v) → ∀ r rs,
      (convertSites F (exprsOf t) c).1 = r :: rs →
      c.versionOf y ≤ (bindSite x (convertSites F (exprsOf t) c).2
        (convertSites F (exprsOf t) c).1).versionOf y ∧
      (c.versionOf y = (bindSite x (convertSites F (exprsOf t) c).2
        (convertSites F (exprsOf t) c).1).versionOf y → s'.vars y = s.vars y) := by
    intro x hx r rs hr
    refine key x _ (fun z => ?_) hx
    simp only [hr, bindSite]
    split
    · exact Nat.le_refl _
    · exact hbr _ z
  simp only [convertStmt, afterSites]
  cases t with
  | letE x e =>
    simp only [stepS] at hst
    cases h1 : evalX (R.world s.vars) e <;> simp only [h1, Except.bind] at hst <;> cases hst
    exact hbind x ⟨_, rfl⟩ _ _ rfl
  | setE x e =>
    simp only [stepS] at hst
    cases h1 : evalX (R.world s.vars) e <;> simp only [h1, Except.bind] at hst
    · cases hst
    cases h2 : readVar s.vars x <;> simp only [h2] at hst <;> cases hst
    exact hbind x ⟨_, rfl⟩ _ _ rfl
  | showE e =>
    simp only [stepS] at hst
    cases h1 : evalX (R.world s.vars) e <;> simp only [h1, Except.bind] at hst <;> cases hst
    exact ⟨Nat.le_of_eq hv.symm, fun _ => rfl⟩
  | assertE e =>
    simp only [stepS] at hst
    cases h1 : evalX (R.world s.vars) e <;> simp only [h1, Except.bind] at hst
    · cases hst
    split at hst <;> cases hst
    exact ⟨Nat.le_of_eq hv.symm, fun _ => rfl⟩
  | ret e =>
    simp only [stepS] at hst
    cases h1 : evalX (R.world s.vars) e <;> simp only [h1, Except.bind] at hst <;> cases hst
    exact ⟨Nat.le_of_eq hv.symm, fun _ => rfl⟩
  | push e x =>
    simp only [stepS] at hst
    cases h1 : evalX (R.world s.vars) e <;> simp only [h1, Except.bind] at hst
    · cases hst
    cases h2 : readVar s.vars x <;> simp only [h2] at hst
    · cases hst
    split at hst <;> cases hst
    exact key x _ (fun z => hbr _ z) ⟨_, rfl⟩
  | setIndex x i e =>
    simp only [stepS] at hst
    cases h0 : evalX (R.world s.vars) i <;> simp only [h0, Except.bind] at hst
    · cases hst
    cases h1 : evalX (R.world s.vars) e <;> simp only [h1] at hst
    · cases hst
    cases h2 : readVar s.vars x <;> simp only [h2] at hst
    · cases hst
    split at hst <;> cases hst
    exact key x _ (fun z => hbr _ z) ⟨_, rfl⟩
  | call f args =>
    simp only [stepS] at hst
    cases h1 : evalArgs (R.world s.vars) args <;> simp only [h1, Except.bind] at hst
    · cases hst
    split at hst
    · cases hst
    · rename_i vs _ r hr
      cases hst
      refine ⟨by rw [← hv]; exact hbr _ y, fun he => ?_⟩
      cases Classical.em (r.1 y = s.vars y) with
      | inl h => exact h
      | inr h =>
        have hm := ht f args rfl _ r hr y h
        have hm' : y ∈ (convertSites F (exprsOf (.call f args)) c).2.collReads := by
          have := (after_frame (.call f args) (convertSites F (exprsOf (.call f args)) c).1
            (convertSites F (exprsOf (.call f args)) c).2).2.2.1
          simp only [convertStmt] at hm
          rwa [this] at hm
        have := foldl_bump_lt (c := (convertSites F (exprsOf (.call f args)) c).2) hm'
        rw [hv] at this
        have he : c.versionOf y = ((convertSites F (exprsOf (.call f args)) c).2.collReads.foldl
          Conv.bump (convertSites F (exprsOf (.call f args)) c).2).versionOf y := he
        omega

theorem after_ok {R : Prog} {M : Sem} {t : RS} {rs : List SiteRec} {c : Conv} {s s' : RState}
    {sup : List Sym} (h : ConvOk M c) (hst : stepS R s t = .ok s')
    (hr : List.Forall₂ (fun r e => r.original = e ∧ RecOk (R.world s.vars) M c r ∧
      r.hi ≤ c.opaques.length) rs (exprsOf t))
    (hv : Ctx (R.world s'.vars) M sup (afterSites t rs c)) :
    ConvOk M (afterSites t rs c) ∧ Grow c.eg (afterSites t rs c).eg := by
  have hb : ∀ l : List Sym, ConvOk M (l.foldl Conv.bump c) ∧
      Grow c.eg (l.foldl Conv.bump c).eg := by
    intro l
    obtain ⟨e1, -, e3, -⟩ := foldl_bump_frame l c
    exact ⟨h.grow (by rw [e1]; exact h.sound) (Grow.of_eq (by rw [e1])) e3,
      Grow.of_eq (by rw [e1])⟩
  have hbind : ∀ x e v, exprsOf t = [e] → evalX (R.world s.vars) e = .ok v →
      s'.vars x = some v → Ctx (R.world s'.vars) M sup (bindSite x c rs) →
      ConvOk M (bindSite x c rs) ∧ Grow c.eg (bindSite x c rs).eg := by
    intro x e v he hev hx hv
    rw [he] at hr
    cases hr with
    | @cons r _ rs' _ h1 h2 =>
      cases h2
      obtain ⟨ho, hrec, -⟩ := h1
      simp only [bindSite] at hv ⊢
      by_cases hlo : r.lo = r.hi
      · rw [if_pos hlo] at hv ⊢
        have hvx := hv.var x
        have hvx : M.var x ((c.bump x).versionOf x) = .ok v := by
          rw [show (R.world s'.vars).vars x = .ok v by simp [Prog.world, readVar, hx]] at hvx
          exact hvx
        have hc : ConvOk M (c.bump x) := (hb [x]).1
        have st := add_step hc (n := .var x ((c.bump x).versionOf x)) (by simp [ENode.children])
          (by simp only [Fits]; exact ⟨v, hvx⟩)
        have g1 : Grow c.eg ((c.bump x).add (.var x ((c.bump x).versionOf x))).2.eg := st.grow
        have hd : den M ((c.bump x).add (.var x ((c.bump x).versionOf x))).2.eg
            ((c.bump x).add (.var x ((c.bump x).versionOf x))).1 =
            den M ((c.bump x).add (.var x ((c.bump x).versionOf x))).2.eg r.root := by
          rw [st.den, g1.den hrec.lt, hrec.den, ho, hev]
          exact hvx
        have hs := union_sound st.ok.sound st.lt (Nat.lt_of_lt_of_le hrec.lt g1.le) hd
        have hn := union_nodes ((c.bump x).add (.var x ((c.bump x).versionOf x))).2.eg
          ((c.bump x).add (.var x ((c.bump x).versionOf x))).1 r.root
        refine ⟨st.ok.grow hs (Grow.of_eq hn) rfl, g1.trans (Grow.of_eq hn)⟩
      · rw [if_neg hlo]
        exact hb (x :: c.collReads)
  cases t with
  | letE x e =>
    simp only [stepS] at hst
    cases h1 : evalX (R.world s.vars) e <;> simp only [h1, Except.bind] at hst <;> cases hst
    exact hbind x e _ rfl h1 (by simp [setVar]) hv
  | setE x e =>
    simp only [stepS] at hst
    cases h1 : evalX (R.world s.vars) e <;> simp only [h1, Except.bind] at hst
    · cases hst
    cases h2 : readVar s.vars x <;> simp only [h2] at hst <;> cases hst
    exact hbind x e _ rfl h1 (by simp [setVar]) hv
  | showE | assertE | ret => exact ⟨h, Grow.refl _⟩
  | push e x => exact hb (x :: c.collReads)
  | setIndex x i e => exact hb (x :: c.collReads)
  | call f args => exact hb c.collReads

/-! ## The trace -/

/-- The converter before and after each statement, and the variables before it; at the end once
more. -/
def trace (R : Prog) (F : Nat → SiteFact) : List RS → Conv → RState → List (Conv × Conv × VMap)
  | [], c, s => [(c, c, s.vars)]
  | t :: ts, c, s => (c, (convertStmt F t c).2, s.vars) ::
    match stepS R s t with
    | .error _ => []
    | .ok s' => trace R F ts (convertStmt F t c).2 s'

/-- One entry of the trace comes before another. -/
def Later (p q : Conv × Conv × VMap) : Prop :=
  (∀ y, p.1.versionOf y ≤ q.1.versionOf y ∧
    (p.1.versionOf y = q.1.versionOf y → q.2.2 y = p.2.2 y)) ∧
  p.2.1.opaques.length ≤ q.1.opaques.length

/-- `CallsTame`, statement by statement. -/
def Tame (R : Prog) (F : Nat → SiteFact) : List RS → Conv → RState → Prop
  | [], _, _ => True
  | t :: ts, c, s =>
    (∀ f args, t = .call f args → ∀ vs r, R.calls f vs s.vars = .ok r →
      ∀ x, r.1 x ≠ s.vars x → x ∈ (convertStmt F t c).2.collReads) ∧
    ∀ s', stepS R s t = .ok s' → Tame R F ts (convertStmt F t c).2 s'

/-- `SafeAlong`, statement by statement. -/
def Safe (R : Prog) (sup : List Sym) (F : Nat → SiteFact) : List RS → RState → Prop
  | [], _ => True
  | t :: ts, s =>
    (∀ e ∈ exprsOf t, Truthful (R.world s.vars) sup F e ∧ KindsSafe (R.world s.vars) e ∧
      SlicesSafe (R.world s.vars) e) ∧
    ∀ s', stepS R s t = .ok s' → Safe R sup F ts s'

theorem trace_later {R : Prog} {F : Nat → SiteFact} {ts : List RS} {c : Conv} {s : RState}
    (ht : Tame R F ts c s) : ∀ q ∈ trace R F ts c s,
      (∀ y, c.versionOf y ≤ q.1.versionOf y ∧ (c.versionOf y = q.1.versionOf y →
        q.2.2 y = s.vars y)) ∧ c.opaques.length ≤ q.1.opaques.length := by
  induction ts generalizing c s with
  | nil =>
    intro q hq
    simp only [trace, List.mem_cons, List.not_mem_nil, or_false] at hq
    subst hq
    exact ⟨fun y => ⟨Nat.le_refl _, fun _ => rfl⟩, Nat.le_refl _⟩
  | cons t ts ih =>
    intro q hq
    simp only [trace, List.mem_cons] at hq
    rcases hq with rfl | hq
    · exact ⟨fun y => ⟨Nat.le_refl _, fun _ => rfl⟩, Nat.le_refl _⟩
    · cases h : stepS R s t with
      | error e => simp [h] at hq
      | ok s' =>
        simp only [h] at hq
        obtain ⟨i1, i2⟩ := ih (ht.2 s' h) q hq
        refine ⟨fun y => ?_, Nat.le_trans (stmt_frame F t c).1.length_le i2⟩
        obtain ⟨v1, v2⟩ := stmt_versions (F := F) (c := c) h ht.1 y
        obtain ⟨w1, w2⟩ := i1 y
        refine ⟨by omega, fun he => ?_⟩
        rw [w2 (by omega), v2 (by omega)]

theorem trace_pairwise {R : Prog} {F : Nat → SiteFact} {ts : List RS} {c : Conv} {s : RState}
    (ht : Tame R F ts c s) : (trace R F ts c s).Pairwise Later := by
  induction ts generalizing c s with
  | nil => simp [trace]
  | cons t ts ih =>
    simp only [trace]
    cases h : stepS R s t with
    | error e => simp
    | ok s' =>
      refine List.Pairwise.cons (fun q hq => ?_) (ih (ht.2 s' h))
      obtain ⟨i1, i2⟩ := trace_later (ht.2 s' h) q hq
      refine ⟨fun y => ?_, i2⟩
      obtain ⟨v1, v2⟩ := stmt_versions (F := F) (c := c) h ht.1 y
      obtain ⟨w1, w2⟩ := i1 y
      refine ⟨Nat.le_trans v1 w1, fun he => ?_⟩
      have he : c.versionOf y = q.1.versionOf y := he
      show q.2.2 y = s.vars y
      rw [w2 (by omega), v2 (by omega)]

theorem run_prefix (F : Nat → SiteFact) (ts : List RS) (c : Conv) :
    c.opaques <+: (convertRun F ts c).2.opaques := by
  induction ts generalizing c with
  | nil => exact List.prefix_rfl
  | cons t ts ih => exact (stmt_frame F t c).1.trans (ih _)

theorem trace_frame {R : Prog} {F : Nat → SiteFact} {ts : List RS} {c : Conv} {s : RState} :
    ∀ q ∈ trace R F ts c s, q.2.1.opaques <+: (convertRun F ts c).2.opaques ∧
      q.1.suppressed = c.suppressed := by
  induction ts generalizing c s with
  | nil =>
    intro q hq
    simp only [trace, List.mem_cons, List.not_mem_nil, or_false] at hq
    subst hq
    exact ⟨List.prefix_rfl, rfl⟩
  | cons t ts ih =>
    intro q hq
    simp only [trace, List.mem_cons] at hq
    rcases hq with rfl | hq
    · exact ⟨run_prefix F ts _, rfl⟩
    · cases h : stepS R s t with
      | error e => simp [h] at hq
      | ok s' =>
        simp only [h] at hq
        obtain ⟨i1, i2⟩ := ih q hq
        exact ⟨i1, i2.trans (stmt_frame F t c).2.1⟩

theorem trace_head (R : Prog) (F : Nat → SiteFact) (ts : List RS) (c : Conv) (s : RState) :
    ∃ c', (c, c', s.vars) ∈ trace R F ts c s := by
  cases ts with
  | nil => exact ⟨c, by simp [trace]⟩
  | cons t ts => exact ⟨_, by simp only [trace]; exact List.mem_cons_self⟩

theorem pairwise_cases {α : Type} {r : α → α → Prop} {l : List α} (h : l.Pairwise r) {p q : α}
    (hp : p ∈ l) (hq : q ∈ l) : p = q ∨ r p q ∨ r q p := by
  induction h with
  | nil => cases hp
  | cons h1 _ ih =>
    rcases List.mem_cons.1 hp with rfl | hp <;> rcases List.mem_cons.1 hq with rfl | hq
    · exact .inl rfl
    · exact .inr (.inl (h1 _ hq))
    · exact .inr (.inr (h1 _ ‹_›))
    · exact ih ‹_› ‹_›

/-! ## What the nodes of a run mean -/

/-- A version of a variable is its value when it had that version; an opaque expression is its value
where it stands. -/
def runSem (R : Prog) (l : List (Conv × Conv × VMap)) (ops : List XE) : Sem where
  P := R.P
  contains := R.contains
  var x v := match l.find? (fun p => p.1.versionOf x == v) with
    | some p => readVar p.2.2 x
    | none => .error .stuck
  opq j := match l.find? (fun p => p.1.opaques.length ≤ j && j < p.2.1.opaques.length) with
    | some p => match ops[j]? with
      | some o => evalX (R.world p.2.2) o
      | none => .error .stuck
    | none => .error .stuck

theorem runSem_var {R : Prog} {l : List (Conv × Conv × VMap)} {ops : List XE}
    (h : l.Pairwise Later) {q : Conv × Conv × VMap} (hq : q ∈ l) (x : Sym) :
    (runSem R l ops).var x (q.1.versionOf x) = (R.world q.2.2).vars x := by
  simp only [runSem, Prog.world]
  cases hf : l.find? (fun p => p.1.versionOf x == q.1.versionOf x) with
  | none =>
    have := List.find?_eq_none.1 hf q hq
    simp at this
  | some p =>
    have hp := List.mem_of_find?_eq_some hf
    have he := List.find?_some hf
    simp only [beq_iff_eq] at he
    have : p.2.2 x = q.2.2 x := by
      rcases pairwise_cases h hp hq with rfl | hl | hl
      · rfl
      · exact ((hl.1 x).2 he).symm
      · exact (hl.1 x).2 he.symm
    simp only [readVar, this]

theorem runSem_opq {R : Prog} {l : List (Conv × Conv × VMap)} {ops : List XE}
    (h : l.Pairwise Later) {q : Conv × Conv × VMap} (hq : q ∈ l) (hp : q.2.1.opaques <+: ops) :
    OpqOk (R.world q.2.2) (runSem R l ops) q.1.opaques.length q.2.1.opaques := by
  intro j o hj hjo
  have hlt : j < q.2.1.opaques.length := by
    rcases Nat.lt_or_ge j q.2.1.opaques.length with h | h
    · exact h
    · rw [List.getElem?_eq_none h] at hjo; cases hjo
  have hops : ops[j]? = some o := prefix_get hp hjo
  simp only [runSem, hops]
  cases hf : l.find? (fun p => p.1.opaques.length ≤ j && j < p.2.1.opaques.length) with
  | none =>
    have := List.find?_eq_none.1 hf q hq
    simp [hj] at this
    omega
  | some p =>
    have hpm := List.mem_of_find?_eq_some hf
    have he := List.find?_some hf
    simp only [Bool.and_eq_true, decide_eq_true_eq] at he
    rcases pairwise_cases h hpm hq with rfl | hl | hl
    · rfl
    · have := hl.2; omega
    · have := hl.2; omega

/-! ## The run -/

theorem forall₂_map_left {α β γ : Type} (f : α → γ) {p : α → β → Prop} {q : γ → β → Prop}
    {l : List α} {m : List β} (h : List.Forall₂ p l m) (hpq : ∀ a b, p a b → q (f a) b) :
    List.Forall₂ q (l.map f) m := by
  induction h with
  | nil => exact .nil
  | cons h1 _ ih => exact .cons (hpq _ _ h1) ih

theorem run_ok {R : Prog} {M : Sem} {sup : List Sym} {F : Nat → SiteFact} (hP : M.P = R.P)
    (hC : M.contains = R.contains) {ts : List RS} {c : Conv} {s s' : RState}
    (hs : steps R ts s = .ok s') (h : ConvOk M c) (hsafe : Safe R sup F ts s)
    (htr : ∀ q ∈ trace R F ts c s, Ctx (R.world q.2.2) M sup q.1 ∧
      OpqOk (R.world q.2.2) M q.1.opaques.length q.2.1.opaques) :
    ConvOk M (convertRun F ts c).2 ∧ Grow c.eg (convertRun F ts c).2.eg ∧
      ∀ f : SiteRec → XE, (∀ W r, W.P = R.P → W.contains = R.contains →
        RecOk W M (convertRun F ts c).2 r → evalX W (f r) = evalX W r.original) →
      steps R (List.zipWith (fun t rs => rebuildStmt t (rs.map f)) ts (convertRun F ts c).1) s =
        .ok s' := by
  induction ts generalizing c s with
  | nil => exact ⟨h, Grow.refl _, fun _ _ => hs⟩
  | cons t ts ih =>
    simp only [steps] at hs
    cases hst : stepS R s t with
    | error e => simp [hst, Except.bind] at hs
    | ok s1 =>
      simp only [hst, Except.bind] at hs
      have htail : ∀ q ∈ trace R F ts (convertStmt F t c).2 s1, Ctx (R.world q.2.2) M sup q.1 ∧
          OpqOk (R.world q.2.2) M q.1.opaques.length q.2.1.opaques := by
        intro q hq
        refine htr q ?_
        simp only [trace, hst]
        exact List.mem_cons_of_mem _ hq
      obtain ⟨hctx, hopq⟩ := htr (c, (convertStmt F t c).2, s.vars)
        (by simp only [trace]; exact List.mem_cons_self)
      obtain ⟨c2, hh⟩ := trace_head R F ts (convertStmt F t c).2 s1
      have hctx1 := (htail _ hh).1
      have hafter := after_frame t (convertSites F (exprsOf t) c).1 (convertSites F (exprsOf t) c).2
      have hopq' : OpqOk (R.world s.vars) M c.opaques.length
          (convertSites F (exprsOf t) c).2.opaques := by
        have := hopq
        simp only [convertStmt] at this
        rw [hafter.1] at this
        exact this
      obtain ⟨a1, a2, a3⟩ := sites_ok (W := R.world s.vars) ⟨hP, hC⟩ (exprsOf t) c h hsafe.1 hctx
        hopq'
      obtain ⟨b1, b2⟩ := after_ok a1 hst a3 hctx1
      obtain ⟨i1, i2, i3⟩ := ih (c := (convertStmt F t c).2) hs b1 (hsafe.2 s1 hst) htail
      refine ⟨i1, (a2.trans b2).trans i2, fun f hf => ?_⟩
      have hrs : List.Forall₂ (fun a b => evalX (R.world s.vars) a = evalX (R.world s.vars) b)
          ((convertSites F (exprsOf t) c).1.map f) (exprsOf t) := by
        refine forall₂_map_left f a3 ?_
        intro r e ⟨r1, r2, r3⟩
        rw [← r1]
        refine hf (R.world s.vars) r rfl rfl ?_
        refine r2.mono (b2.trans i2) ?_ r3
        have := run_prefix F ts (convertStmt F t c).2
        simp only [convertStmt] at this
        rwa [hafter.1] at this
      have := stepS_congr hrs
      show steps R (rebuildStmt t _ :: _) s = _
      simp only [steps]
      rw [show (convertStmt F t c).1 = (convertSites F (exprsOf t) c).1 from rfl, this, hst]
      exact i3 f hf

theorem safe_of {R : Prog} {sup : List Sym} {F : Nat → SiteFact} {run : List RS} {s0 : RState}
    (hd : NoDeadCode run) (h : SafeAlong R sup F run s0) (pre ts : List RS) {s : RState}
    (hrun : run = pre ++ ts) (hp : exec R pre s0 = (s, none)) (hr : s.ret = none) :
    Safe R sup F ts s := by
  induction ts generalizing pre s with
  | nil => trivial
  | cons t ts ih =>
    refine ⟨h pre t ts s hrun hp hr, fun s1 hs1 => ?_⟩
    cases hret : s1.ret with
    | some v =>
      have : ts = [] := by
        cases t with
        | ret e => exact hd pre e ts hrun
        | _ => rw [stepS_ret hs1 (by intro e; simp), hr] at hret; cases hret
      subst this
      trivial
    | none =>
      refine ih (pre ++ [t]) (by rw [hrun]; simp) ?_ hret
      rw [exec_append hp hr]
      simp [exec, hs1]

/-- The converse, for examples. -/
theorem safeAlong_of {R : Prog} {sup : List Sym} {F : Nat → SiteFact} {ts : List RS} {s : RState}
    (h : Safe R sup F ts s) : SafeAlong R sup F ts s := by
  intro pre
  induction pre generalizing ts s with
  | nil =>
    intro t post s' hrun he _
    simp only [exec, Prod.mk.injEq, and_true] at he
    subst he
    subst hrun
    exact h.1
  | cons p pre ih =>
    intro t post s' hrun he hr
    subst hrun
    simp only [exec] at he
    cases hp : stepS R s p with
    | error e => simp [hp] at he
    | ok s1 =>
      simp only [hp] at he
      split at he
      · rename_i hs
        simp only [Prod.mk.injEq, and_true] at he
        subst he
        rw [hr] at hs
        cases hs
      · exact ih (h.2 s1 hp) t post s' rfl he hr

theorem tame_of {R : Prog} {F : Nat → SiteFact} {run : List RS} {s0 : RState}
    (hd : NoDeadCode run) (h : CallsTame R run s0) (pre ts : List RS) {c : Conv} {s : RState}
    (hrun : run = pre ++ ts) (hp : exec R pre s0 = (s, none)) (hr : s.ret = none)
    (hc : ∀ y ∈ runReads pre, y ∈ c.collReads) : Tame R F ts c s := by
  induction ts generalizing pre c s with
  | nil => trivial
  | cons t ts ih =>
    have hc' : ∀ y ∈ runReads (pre ++ [t]), y ∈ (convertStmt F t c).2.collReads := by
      intro y hy
      simp only [runReads, List.flatMap_append, List.flatMap_cons, List.flatMap_nil,
        List.append_nil] at hy
      rcases List.mem_append.1 hy with hy | hy
      · exact (stmt_frame F t c).2.2.1 y (hc y hy)
      · exact (stmt_frame F t c).2.2.2 y hy
    refine ⟨?_, fun s1 hs1 => ?_⟩
    · intro f args ht vs r hcall x hx
      subst ht
      exact hc' x (h pre f args ts s hrun hp hr vs r hcall x hx)
    cases hret : s1.ret with
    | some v =>
      have : ts = [] := by
        cases t with
        | ret e => exact hd pre e ts hrun
        | _ => rw [stepS_ret hs1 (by intro e; simp), hr] at hret; cases hret
      subst this
      trivial
    | none =>
      refine ih (pre ++ [t]) (by rw [hrun]; simp) ?_ hret hc'
      rw [exec_append hp hr]
      simp [exec, hs1]

theorem rebuildStmt_ret {t : RS} {es : List XE} {e : XE} (h : rebuildStmt t es = .ret e) :
    ∃ e', t = .ret e' := by
  cases t with
  | ret e' => exact ⟨e', rfl⟩
  | call f args => simp [rebuildStmt] at h
  | _ => simp only [rebuildStmt] at h; split at h <;> simp_all

theorem noDead_zip {run : List RS} (hd : NoDeadCode run) (rs : List (List SiteRec))
    (f : SiteRec → XE) :
    NoDeadCode (List.zipWith (fun t rs => rebuildStmt t (rs.map f)) run rs) := by
  induction run generalizing rs with
  | nil => intro pre e post h; simp at h
  | cons t ts ih =>
    cases rs with
    | nil => intro pre e post h; simp at h
    | cons r rs =>
      intro pre e post h
      cases pre with
      | nil =>
        simp only [List.zipWith_cons_cons, List.nil_append, List.cons.injEq] at h
        obtain ⟨e', rfl⟩ := rebuildStmt_ret h.1
        have := hd [] e' ts rfl
        subst this
        simpa using h.2.symm
      | cons p pre =>
        simp only [List.zipWith_cons_cons, List.cons_append, List.cons.injEq] at h
        exact ih hd.tail rs pre e post h.2

/-- A run that ends without an error ends in the same way after the pass. -/
theorem flushRunWith_exec {R : Prog} {rules : List Rule}
    (hr : ∀ M : Sem, ∀ rule ∈ rules, RuleOk M rule) (fuel iters cap : Nat) {F : Nat → SiteFact}
    {sup : List Sym} {run : List RS} {s s' : RState} (hd : NoDeadCode run) (h0 : s.ret = none)
    (hs : SafeAlong R sup F run s) (ht : CallsTame R run s) (he : exec R run s = (s', none)) :
    exec R (flushRunWith rules fuel iters cap F sup run) s = (s', none) := by
  have hsteps := (exec_steps hd h0).1 he
  have hsafe := safe_of hd hs [] run rfl (s := s) rfl h0
  let c0 : Conv := { suppressed := sup }
  have htame : Tame R F run c0 s := tame_of hd ht [] run rfl rfl h0 (fun y hy => by cases hy)
  let M := runSem R (trace R F run c0 s) (convertRun F run c0).2.opaques
  have hpw := trace_pairwise htame
  have htr : ∀ q ∈ trace R F run c0 s, Ctx (R.world q.2.2) M sup q.1 ∧
      OpqOk (R.world q.2.2) M q.1.opaques.length q.2.1.opaques := by
    intro q hq
    obtain ⟨f1, f2⟩ := trace_frame q hq
    exact ⟨⟨fun x => runSem_var hpw hq x, f2⟩, runSem_opq hpw hq f1⟩
  have hc0 : ConvOk M c0 := ⟨Sound.new M, fun p hp => by cases hp⟩
  obtain ⟨r1, r2, r3⟩ := run_ok (M := M) rfl rfl hsteps hc0 hsafe htr
  obtain ⟨f1, f2⟩ := finish_from r1
  have s1 := f1.trans (saturate_from fuel iters cap (hr M) f1.1)
  unfold flushRunWith
  refine (exec_steps (noDead_zip hd _ _) h0).2 (r3 _ ?_)
  intro W r hP hC hrec
  unfold extractSite
  split
  · split
    · rename_i e' he'
      split
      · rfl
      · have hl : Leaves W M r.admissible (convertRun F run c0).2.finish.opaques :=
          f2 ▸ hrec.leaves
        have := extract_eval ⟨hP.symm, hC.symm⟩ hl s1.1 fuel
          (Nat.lt_of_lt_of_le hrec.lt s1.2.le) he'
        rw [this, s1.2.den hrec.lt, hrec.den]
    · rfl
  · rfl

end Verif.Lang.EGraph
