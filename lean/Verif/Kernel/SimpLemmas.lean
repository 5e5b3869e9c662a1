import Verif.Kernel.Simp
import Verif.Kernel.CcComplete
import Mathlib.Tactic.Ring
/-! # Lemmas about the simplifier -/
namespace Verif.Kernel

/-- The value of a converted term. -/
def STerm.eval {α : Type} (A : AppStructure α) : STerm → α
  | .lit n => A.lit n
  | .var i => A.var i
  | .name s => A.name s
  | .app f a => A.app (f.eval A) (a.eval A)

theorem toSTerm_sApp {f a : Term} {r : STerm} : toSTerm (sApp f a) = some r ↔
    ∃ x y, toSTerm f = some x ∧ toSTerm a = some y ∧ r = .app x y := by
  rw [sApp, toSTerm, if_pos rfl]
  cases e : toSTerm f with
  | none => simp
  | some x =>
    cases e2 : toSTerm a with
    | none => simp
    | some y =>
      constructor
      · intro h
        simp only [Option.some.injEq] at h
        exact ⟨x, y, rfl, rfl, h.symm⟩
      · rintro ⟨_, _, h1, h2, rfl⟩
        cases h1; cases h2
        rfl

theorem toSTerm_value {α : Type} (A : AppStructure α) : ∀ (t : Term) {r : STerm}, toSTerm t = some r →
    Value A t (r.eval A)
  | .global s, _, h => by simp [toSTerm] at h
  | .lit l, _, h => by simp [toSTerm] at h
  | .other n, _, h => by simp [toSTerm] at h
  | .app (.global c) x, r, h => by
    rw [toSTerm] at h
    split at h
    · rename_i n e; rw [extractSlit_some e]; cases h; exact .lit n
    · split at h
      · rename_i n e; rw [extractSvar_some e]; cases h; exact .var n
      · split at h
        · rename_i s e; rw [extractSname_some e]; cases h; exact .name s
        · cases h
  | .app (.app (.global c) f) a, r, h => by
    have hc : c = "SApp" := by
      rw [toSTerm] at h
      split at h
      · rename_i e; exact e
      · cases h
    subst hc
    obtain ⟨x, y, h1, h2, rfl⟩ := toSTerm_sApp.1 h
    exact .app (toSTerm_value A f h1) (toSTerm_value A a h2)
  | .app (.lit _) _, _, h => by simp [toSTerm] at h
  | .app (.other _) _, _, h => by simp [toSTerm] at h
  | .app (.app (.lit _) _) _, _, h => by simp [toSTerm] at h
  | .app (.app (.other _) _) _, _, h => by simp [toSTerm] at h
  | .app (.app (.app _ _) _) _, _, h => by simp [toSTerm] at h

theorem i64_some {n m : Int} (h : i64 n = some m) : m = n := by
  unfold i64 at h; split at h <;> simp_all

theorem i64_fits {n : Int} (h : Fits n) : i64 n = some n := if_pos h

theorem checkedOp_value {α : Type} {A : AppStructure α} (hA : Arithmetic A) {op : String} {x y r : Int}
    (h : checkedOp op x y = some r) : A.op op (A.lit x) (A.lit y) = A.lit r := by
  unfold checkedOp at h
  split at h
  · rename_i e; subst e; rw [i64_some h]; exact hA.add x y
  · split at h
    · rename_i e; subst e; rw [i64_some h]; exact hA.sub x y
    · split at h
      · rename_i e; subst e; rw [i64_some h]; exact hA.mul x y
      · split at h
        · rename_i e; obtain ⟨rfl, hy⟩ := e; rw [i64_some h]; exact hA.div x y hy
        · split at h
          · rename_i e; obtain ⟨rfl, hy⟩ := e
            rw [Option.map_eq_some_iff] at h
            obtain ⟨_, _, rfl⟩ := h
            exact hA.mod x y hy
          · cases h

theorem tryArithmetic_value {α : Type} {A : AppStructure α} (hA : Arithmetic A) {f a r : STerm}
    (h : tryArithmetic f a = some r) : r.eval A = A.app (f.eval A) (a.eval A) := by
  unfold tryArithmetic at h
  split at h
  · rw [Option.map_eq_some_iff] at h
    obtain ⟨z, h1, rfl⟩ := h
    exact (checkedOp_value hA h1).symm
  · cases h

/-- The rewrites hold in the structure. -/
def SubstHolds {α : Type} (A : AppStructure α) (s : Subst) : Prop := ∀ e ∈ s, A.var e.1 = e.2.eval A

theorem Subst.get_mem {s : Subst} {i : Int} {r : STerm} (h : s.get i = some r) : (i, r) ∈ s := by
  unfold Subst.get at h
  rw [Option.map_eq_some_iff] at h
  obtain ⟨e, h1, rfl⟩ := h
  have := List.find?_some h1
  simp only [decide_eq_true_eq] at this
  subst this
  exact List.mem_of_find?_eq_some h1

theorem simplify_value {α : Type} {A : AppStructure α} (hA : Arithmetic A) {s : Subst}
    (hs : SubstHolds A s) : ∀ (f : Nat) (t : STerm), (simplify f s t).eval A = t.eval A
  | 0, t => rfl
  | f + 1, .var i => by
    rw [simplify]
    cases e : s.get i with
    | none => rfl
    | some r => exact (simplify_value hA hs f r).trans (hs _ (Subst.get_mem e)).symm
  | f + 1, .app g a => by
    rw [simplify]
    cases e : tryArithmetic (simplify f s g) (simplify f s a) with
    | none =>
      show A.app _ _ = A.app _ _
      rw [simplify_value hA hs f g, simplify_value hA hs f a]
    | some r =>
      show (simplify f s r).eval A = A.app _ _
      rw [simplify_value hA hs f r, tryArithmetic_value hA e, simplify_value hA hs f g,
        simplify_value hA hs f a]
  | _ + 1, .lit _ => rfl
  | _ + 1, .name _ => rfl

theorem ternaryEq_some {t a b : Term} (h : ternaryEq t = some (a, b)) : ∃ ty, t = typedEq ty a b := by
  unfold ternaryEq at h
  split at h
  · split at h
    · rename_i c1 c2 c3 name ty a b e
      obtain ⟨rfl, rfl, rfl, hn⟩ := e
      rw [extractSname_some hn]
      cases h
      exact ⟨_, rfl⟩
    · cases h
  · cases h

/-- An equation read by the simplifier means that the values are equal. -/
theorem simpEquality_meaning {α : Type} {A : AppStructure α} {T : Term → Prop} (hT : TypedMeaning A T)
    {t l r : Term} (h : simpEquality t = some (l, r)) {x y : α} (hx : Value A l x) (hy : Value A r y) :
    T t ↔ x = y := by
  unfold simpEquality at h
  cases e : ccEquality t with
  | some p =>
    rw [e] at h
    cases h
    obtain ⟨s, hs, rfl⟩ := ccEquality_some e
    exact hT.equation s l r x y hs hx hy
  | none =>
    rw [e] at h
    obtain ⟨ty, rfl⟩ := ternaryEq_some h
    exact hT.typed ty l r x y hx hy

theorem rewriteOf_holds {α : Type} {A : AppStructure α} {T : Term → Prop} (hT : TypedMeaning A T)
    {h : Term} {e : Int × STerm} (hr : rewriteOf h = some e) (hh : T h) : A.var e.1 = e.2.eval A := by
  unfold rewriteOf at hr
  cases he : simpEquality h with
  | none => rw [he] at hr; cases hr
  | some p =>
    obtain ⟨l, r⟩ := p
    rw [he] at hr
    simp only at hr
    split at hr
    · rename_i i hl
      rw [Option.map_eq_some_iff] at hr
      obtain ⟨t, ht, rfl⟩ := hr
      have h1 := toSTerm_value A l hl
      have h2 := toSTerm_value A r ht
      exact (simpEquality_meaning hT he h1 h2).1 hh
    · cases hr

theorem simpConclude_true {α : Type} {A : AppStructure α} (hA : Arithmetic A) {T : Term → Prop}
    (hT : TypedMeaning A T) {s : Subst} (hs : SubstHolds A s) {t : Term}
    (h : simpConclude s t = true) : T t := by
  unfold simpConclude at h
  cases he : simpEquality t with
  | none => rw [he] at h; cases h
  | some p =>
    obtain ⟨l, r⟩ := p
    rw [he] at h
    simp only at h
    cases hl : toSTerm l with
    | none => rw [hl] at h; cases h
    | some l' =>
      rw [hl] at h
      simp only at h
      cases hr : toSTerm r with
      | none => rw [hr] at h; cases h
      | some r' =>
        rw [hr] at h
        simp only [simpSame, decide_eq_true_eq] at h
        rw [simpEquality_meaning hT he (toSTerm_value A l hl) (toSTerm_value A r hr)]
        rw [← simplify_value hA hs 1000 l', h, simplify_value hA hs]

theorem simpDecompose_true {α : Type} {A : AppStructure α} (hA : Arithmetic A) {T : Term → Prop}
    (hT : TypedMeaning A T) : ∀ (goal : Term) (s : Subst), SubstHolds A s →
      simpConclude (simpDecompose s goal).1 (simpDecompose s goal).2 = true → T goal
  | .app (.app (.global c) (.app (.app (.global c2) name) a)) b => by
    intro s hs h
    rw [simpDecompose] at h
    split at h
    · rename_i hc
      obtain ⟨rfl, rfl, hn⟩ := hc
      rw [extractSname_some hn]
      show T (sBin "implies" a b)
      rw [hT.implication]
      intro ha
      refine simpDecompose_true hA hT b _ ?_ h
      intro e he
      rcases List.mem_append.1 he with he | he
      · rw [Option.mem_toList] at he
        exact rewriteOf_holds hT he ha
      · exact hs e he
    · exact simpConclude_true hA hT hs h
  | .global _ => fun s hs h => simpConclude_true hA hT hs (by simpa [simpDecompose] using h)
  | .lit _ => fun s hs h => simpConclude_true hA hT hs (by simpa [simpDecompose] using h)
  | .other _ => fun s hs h => simpConclude_true hA hT hs (by simpa [simpDecompose] using h)
  | .app (.global _) _ => fun s hs h => simpConclude_true hA hT hs (by simpa [simpDecompose] using h)
  | .app (.lit _) _ => fun s hs h => simpConclude_true hA hT hs (by simpa [simpDecompose] using h)
  | .app (.other _) _ => fun s hs h => simpConclude_true hA hT hs (by simpa [simpDecompose] using h)
  | .app (.app (.lit _) _) _ => fun s hs h =>
    simpConclude_true hA hT hs (by simpa [simpDecompose] using h)
  | .app (.app (.other _) _) _ => fun s hs h =>
    simpConclude_true hA hT hs (by simpa [simpDecompose] using h)
  | .app (.app (.app _ _) _) _ => fun s hs h =>
    simpConclude_true hA hT hs (by simpa [simpDecompose] using h)
  | .app (.app (.global _) (.global _)) _ => fun s hs h =>
    simpConclude_true hA hT hs (by simpa [simpDecompose] using h)
  | .app (.app (.global _) (.lit _)) _ => fun s hs h =>
    simpConclude_true hA hT hs (by simpa [simpDecompose] using h)
  | .app (.app (.global _) (.other _)) _ => fun s hs h =>
    simpConclude_true hA hT hs (by simpa [simpDecompose] using h)
  | .app (.app (.global _) (.app (.global _) _)) _ => fun s hs h =>
    simpConclude_true hA hT hs (by simpa [simpDecompose] using h)
  | .app (.app (.global _) (.app (.lit _) _)) _ => fun s hs h =>
    simpConclude_true hA hT hs (by simpa [simpDecompose] using h)
  | .app (.app (.global _) (.app (.other _) _)) _ => fun s hs h =>
    simpConclude_true hA hT hs (by simpa [simpDecompose] using h)
  | .app (.app (.global _) (.app (.app (.lit _) _) _)) _ => fun s hs h =>
    simpConclude_true hA hT hs (by simpa [simpDecompose] using h)
  | .app (.app (.global _) (.app (.app (.other _) _) _)) _ => fun s hs h =>
    simpConclude_true hA hT hs (by simpa [simpDecompose] using h)
  | .app (.app (.global _) (.app (.app (.app _ _) _) _)) _ => fun s hs h =>
    simpConclude_true hA hT hs (by simpa [simpDecompose] using h)

/-! ## Computing -/

theorem simplify_lit (f : Nat) (s : Subst) (n : Int) : simplify f s (.lit n) = .lit n := by
  cases f <;> rfl

theorem simplify_name (f : Nat) (s : Subst) (n : String) : simplify f s (.name n) = .name n := by
  cases f <;> rfl

/-- The substitution gives the variables their values. -/
def Gives (s : Subst) (ρ : Int → Option Int) : Prop := ∀ i n, ρ i = some n → s.get i = some (.lit n)

theorem simplify_bin {f : Nat} {s : Subst} {op : String} {a b : STerm} {x y r : Int}
    (ha : simplify f s a = .lit x) (hb : simplify (f + 1) s b = .lit y)
    (hr : checkedOp op x y = some r) :
    simplify (f + 2) s (.app (.app (.name op) a) b) = .lit r := by
  have h1 : simplify (f + 1) s (.app (.name op) a) = .app (.name op) (.lit x) := by
    rw [simplify, ha, simplify_name]
    rfl
  rw [simplify, h1, hb]
  have : tryArithmetic (.app (.name op) (.lit x)) (.lit y) = some (.lit r) := by
    simp [tryArithmetic, hr]
  rw [this]
  exact simplify_lit _ _ _

theorem toSTerm_sBin {op : String} {a b : Term} {x y : STerm} (ha : toSTerm a = some x)
    (hb : toSTerm b = some y) : toSTerm (sBin op a b) = some (.app (.app (.name op) x) y) :=
  toSTerm_sApp.2 ⟨_, _, toSTerm_sApp.2 ⟨_, _, rfl, ha, rfl⟩, hb, rfl⟩

theorem evaluates_simplify {ρ : Int → Option Int} {s : Subst} (hs : Gives s ρ) {d : Nat} {t : Term}
    {v : Int} (h : Evaluates ρ d t v) :
    ∃ r, toSTerm t = some r ∧ ∀ f, 2 * d < f → simplify f s r = .lit v := by
  have bin : ∀ {d : Nat} {op : String} {a b : Term} {x y r : Int},
      (∃ r, toSTerm a = some r ∧ ∀ f, 2 * d < f → simplify f s r = .lit x) →
      (∃ r, toSTerm b = some r ∧ ∀ f, 2 * d < f → simplify f s r = .lit y) →
      checkedOp op x y = some r →
      ∃ z, toSTerm (sBin op a b) = some z ∧ ∀ f, 2 * (d + 1) < f → simplify f s z = .lit r := by
    rintro d op a b x y r ⟨ra, ha, ha'⟩ ⟨rb, hb, hb'⟩ hr
    refine ⟨_, toSTerm_sBin ha hb, fun f hf => ?_⟩
    obtain ⟨g, rfl⟩ : ∃ g, f = g + 2 := ⟨f - 2, by omega⟩
    exact simplify_bin (ha' g (by omega)) (hb' (g + 1) (by omega)) hr
  induction h with
  | lit d n => exact ⟨.lit n, rfl, fun f _ => simplify_lit _ _ _⟩
  | @var d i n hi =>
    refine ⟨.var i, rfl, fun f hf => ?_⟩
    obtain ⟨g, rfl⟩ : ∃ g, f = g + 1 := ⟨f - 1, by omega⟩
    rw [simplify, hs i n hi]
    exact simplify_lit _ _ _
  | add _ _ hf i1 i2 => exact bin i1 i2 (by simp [checkedOp, i64_fits hf])
  | sub _ _ hf i1 i2 => exact bin i1 i2 (by simp [checkedOp, i64_fits hf])
  | mul _ _ hf i1 i2 => exact bin i1 i2 (by simp [checkedOp, i64_fits hf])
  | div _ _ hy hf i1 i2 => exact bin i1 i2 (by simp [checkedOp, i64_fits hf, hy])
  | mod _ _ hy hf i1 i2 => exact bin i1 i2 (by simp [checkedOp, i64_fits hf, hy])

theorem simpEquality_eq (a b : Term) : simpEquality (sBin "Eq" a b) = some (a, b) := by
  unfold simpEquality; rw [ccEquality_sBin (Or.inl rfl)]

theorem rewriteOf_value (i n : Int) : rewriteOf (sBin "Eq" (sVar i) (sLit n)) = some (i, .lit n) := by
  unfold rewriteOf; rw [simpEquality_eq]; rfl

theorem simpDecompose_valueGoal (hs : List (Int × Int)) (e : Term × Term) (s : Subst) :
    simpDecompose s (valueGoal hs e) =
      (hs.reverse.map (fun h => (h.1, STerm.lit h.2)) ++ s, sBin "Eq" e.1 e.2) := by
  induction hs generalizing s with
  | nil =>
    simp only [valueGoal, sBin, sApp]
    rw [simpDecompose, if_neg (by
      rintro ⟨_, _, h⟩
      simp at h)]
    rfl
  | cons h hs ih =>
    have : simpDecompose s (valueGoal (h :: hs) e) =
        simpDecompose ((rewriteOf (sBin "Eq" (sVar h.1) (sLit h.2))).toList ++ s) (valueGoal hs e) := by
      conv_lhs => rw [valueGoal, sBin, sApp, sApp, simpDecompose, if_pos ⟨rfl, rfl, by simp⟩]
    rw [this, rewriteOf_value, ih]
    simp

theorem gives_given (hs : List (Int × Int)) :
    Gives (hs.reverse.map (fun h => (h.1, STerm.lit h.2))) (given hs) := by
  intro i n h
  unfold given at h
  rw [Option.map_eq_some_iff] at h
  obtain ⟨e, he, rfl⟩ := h
  unfold Subst.get
  rw [List.find?_map]
  simp only [Function.comp_def]
  rw [he]; rfl

theorem simpAccepts_evaluates {hs : List (Int × Int)} {a b : Term} {x y : Int} {d : Nat} (hd : d < 500)
    (ha : Evaluates (given hs) d a x) (hb : Evaluates (given hs) d b y) :
    simpAccepts (valueGoal hs (a, b)) = true ↔ x = y := by
  obtain ⟨ra, ha1, ha2⟩ := evaluates_simplify (gives_given hs) ha
  obtain ⟨rb, hb1, hb2⟩ := evaluates_simplify (gives_given hs) hb
  unfold simpAccepts
  rw [simpDecompose_valueGoal, List.append_nil]
  simp only [simpConclude, simpEquality_eq, ha1, hb1, simpSame]
  rw [ha2 1000 (by omega), hb2 1000 (by omega)]
  simp

/-! ## The cost of a cyclic rewrite -/

/-- The hypothesis `x = x + x`. -/
def doubling : Subst := [(0, .app (.app (.name "add") (.var 0)) (.var 0))]

theorem calls_doubling (f : Nat) : simplifyCalls f doubling (.var 0) + simplifyCalls (f + 1) doubling (.var 0) ≤
    simplifyCalls (f + 3) doubling (.var 0) := by
  have hv : ∀ k, simplifyCalls (k + 1) doubling (.var 0) =
      1 + simplifyCalls k doubling (.app (.app (.name "add") (.var 0)) (.var 0)) := by
    intro k; rw [simplifyCalls]; rfl
  have happ : ∀ k g a, simplifyCalls k doubling g + simplifyCalls k doubling a ≤
      simplifyCalls (k + 1) doubling (.app g a) := by
    intro k g a; rw [simplifyCalls]; split <;> omega
  have h1 : simplifyCalls (f + 3) doubling (.var 0) = _ := hv (f + 2)
  have h2 : _ ≤ simplifyCalls (f + 2) doubling _ := happ (f + 1) (.app (.name "add") (.var 0)) (.var 0)
  have h3 := happ f (.name "add") (.var 0)
  omega

theorem calls_exponential (n : Nat) : ∀ f, 3 * n ≤ f → 2 ^ n ≤ simplifyCalls f doubling (.var 0) := by
  induction n with
  | zero =>
    intro f _
    cases f with
    | zero => simp [simplifyCalls]
    | succ f => rw [simplifyCalls]; split <;> omega
  | succ n ih =>
    intro f hf
    obtain ⟨g, rfl⟩ : ∃ g, f = g + 3 := ⟨f - 3, by omega⟩
    have := calls_doubling g
    have h1 := ih g (by omega)
    have h2 := ih (g + 1) (by omega)
    rw [Nat.pow_succ]; omega

end Verif.Kernel
