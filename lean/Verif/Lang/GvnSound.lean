import Verif.Lang.Gvn
import Verif.Lang.GvnEffects
import Verif.Lang.IntervalRun

/-! # Sharing computations in a program that meets the conditions of `GvnSpec.lean` -/
namespace Verif.Lang.Gvn

/-! ## Keys -/

theorem keyOf_names : ∀ (e : Expr) (k : Key), keyOf e = some k → k.syms = names e
  | .var x, k, h => by simp only [keyOf, Option.some.injEq] at h; subst h; rfl
  | .lit l, k, h => by
    cases l <;> simp only [keyOf, Option.some.injEq, reduceCtorEq] at h <;> subst h <;> rfl
  | .bin op a b, k, h => by
    simp only [keyOf] at h
    split at h
    · rename_i j k' h1 h2
      cases h
      simp [Key.syms, names, keyOf_names a _ h1, keyOf_names b _ h2]
    · cases h
  | .index a b, k, h => by
    simp only [keyOf] at h
    split at h
    · rename_i j k' h1 h2
      cases h
      simp [Key.syms, names, keyOf_names a _ h1, keyOf_names b _ h2]
    · cases h
  | .length a, k, h => by
    simp only [keyOf, Option.map_eq_some_iff] at h
    obtain ⟨j, h1, rfl⟩ := h
    simp [Key.syms, names, keyOf_names a _ h1]
  | .not a, k, h => by
    simp only [keyOf, Option.map_eq_some_iff] at h
    obtain ⟨j, h1, rfl⟩ := h
    simp [Key.syms, names, keyOf_names a _ h1]
  | .call _ _, k, h => by simp [keyOf] at h
  | .callv _ _, k, h => by simp [keyOf] at h
  | .list _, k, h => by simp [keyOf] at h
  | .closure _ _, k, h => by simp [keyOf] at h

theorem keyOf_simple : ∀ e : Expr, (keyOf e).isSome = simple e
  | .var x => rfl
  | .lit l => by cases l <;> rfl
  | .bin op a b => by
    have ha := keyOf_simple a
    have hb := keyOf_simple b
    simp only [keyOf, simple, ← ha, ← hb]
    cases keyOf a <;> cases keyOf b <;> rfl
  | .index a b => by
    have ha := keyOf_simple a
    have hb := keyOf_simple b
    simp only [keyOf, simple, ← ha, ← hb]
    cases keyOf a <;> cases keyOf b <;> rfl
  | .length a => by simp [keyOf, simple, ← keyOf_simple a]
  | .not a => by simp [keyOf, simple, ← keyOf_simple a]
  | .call _ _ => rfl
  | .callv _ _ => rfl
  | .list _ => rfl
  | .closure _ _ => rfl

theorem nonTrivial_eq (e : Expr) : nonTrivial e = compound e := by cases e <;> rfl

/-- The expression a key stands for. -/
def Key.expr : Key → Expr
  | .ident x => .var x
  | .num n => .lit (.num n)
  | .bool b => .lit (.bool b)
  | .text t => .lit (.text t)
  | .bin op a b => .bin op a.expr b.expr
  | .length a => .length a.expr
  | .not a => .not a.expr
  | .index a b => .index a.expr b.expr

theorem keyOf_expr : ∀ (e : Expr) (k : Key), keyOf e = some k → k.expr = e
  | .var x, k, h => by simp only [keyOf, Option.some.injEq] at h; subst h; rfl
  | .lit l, k, h => by
    cases l <;> simp only [keyOf, Option.some.injEq, reduceCtorEq] at h <;> subst h <;> rfl
  | .bin op a b, k, h => by
    simp only [keyOf] at h
    split at h
    · rename_i j k' h1 h2
      cases h
      simp [Key.expr, keyOf_expr a _ h1, keyOf_expr b _ h2]
    · cases h
  | .index a b, k, h => by
    simp only [keyOf] at h
    split at h
    · rename_i j k' h1 h2
      cases h
      simp [Key.expr, keyOf_expr a _ h1, keyOf_expr b _ h2]
    · cases h
  | .length a, k, h => by
    simp only [keyOf, Option.map_eq_some_iff] at h
    obtain ⟨j, h1, rfl⟩ := h
    simp [Key.expr, keyOf_expr a _ h1]
  | .not a, k, h => by
    simp only [keyOf, Option.map_eq_some_iff] at h
    obtain ⟨j, h1, rfl⟩ := h
    simp [Key.expr, keyOf_expr a _ h1]
  | .call _ _, k, h => by simp [keyOf] at h
  | .callv _ _, k, h => by simp [keyOf] at h
  | .list _, k, h => by simp [keyOf] at h
  | .closure _ _, k, h => by simp [keyOf] at h

theorem key_reusable {e : Expr} (hc : compound e = true) :
    (keyOf e).toList = (if reusable e then [e] else []).filterMap keyOf := by
  have h := keyOf_simple e
  unfold reusable
  rw [hc, ← h]
  cases hk : keyOf e <;> simp [hk]

theorem occs_parts : ∀ e : Expr, occs e = (parts e).filterMap keyOf
  | .var _ => rfl
  | .lit _ => rfl
  | .bin op a b => by
    simp only [occs, parts, List.filterMap_append, ← occs_parts a, ← occs_parts b]
    rw [key_reusable rfl]
  | .index a b => by
    simp only [occs, parts, List.filterMap_append, ← occs_parts a, ← occs_parts b]
    rw [key_reusable rfl]
  | .length a => by
    simp only [occs, parts, List.filterMap_append, ← occs_parts a]
    rw [key_reusable rfl]
  | .not a => by
    simp only [occs, parts, List.filterMap_append, ← occs_parts a]
    rw [key_reusable rfl]
  | .call _ _ => rfl
  | .callv _ _ => rfl
  | .list _ => rfl
  | .closure _ _ => rfl

theorem nodup_filterMap_keyOf : ∀ {l : List Expr}, l.Nodup → (l.filterMap keyOf).Nodup
  | [], _ => by simp
  | e :: l, h => by
    rw [List.nodup_cons] at h
    have ih := nodup_filterMap_keyOf h.2
    cases hk : keyOf e with
    | none => rw [List.filterMap_cons_none hk]; exact ih
    | some k =>
      rw [List.filterMap_cons_some hk, List.nodup_cons]
      refine ⟨?_, ih⟩
      rw [List.mem_filterMap]
      rintro ⟨e', he', hk'⟩
      rw [← keyOf_expr e k hk, keyOf_expr e' k hk'] at h
      exact h.1 he'

theorem no_dupes {e : Expr} (h : (parts e).Nodup) : hasDupes e = false := by
  have h1 : (occs e).Nodup := by rw [occs_parts]; exact nodup_filterMap_keyOf h
  unfold hasDupes
  rw [List.any_eq_false]
  intro k _
  have := List.nodup_iff_count.1 h1 k
  simp only [decide_eq_true_eq]
  omega

/-! ## Evaluating simple expressions -/

section
variable {I : Inst}

theorem bind_fst {α β : Type} {r : Res α} {f : α → State → Res β} {s : State} (h : r.2 = s)
    (hf : ∀ a, (f a s).2 = s) : (r.bind f).2 = s := by
  rcases r with ⟨r, s'⟩
  simp only at h
  subst h
  cases r with
  | ok a => exact hf a
  | error e => rfl

theorem evBin_state {op : BinOp} {fa fb : State → Res Value} {s : State} (ha : (fa s).2 = s)
    (hb : (fb s).2 = s) : (evBin I op fa fb s).2 = s := by
  have hbo : (boolOut I.P (fb s)).2 = s := bind_fst hb fun _ => rfl
  unfold evBin
  split
  · refine bind_fst ha fun a => ?_
    split
    · exact hbo
    · rfl
  · refine bind_fst ha fun a => ?_
    split
    · rfl
    · exact hbo
  · exact bind_fst ha fun a => bind_fst hb fun b => rfl

/-- Evaluating a simple expression changes nothing. -/
theorem simple_state : ∀ (e : Expr) (s : State), simple e = true → (evalE I e s).2 = s
  | .var x, s, _ => by simp only [evalE, evVar]; split <;> (try split) <;> rfl
  | .lit l, s, _ => by simp only [evalE]
  | .bin op a b, s, h => by
    simp only [simple, Bool.and_eq_true] at h
    simp only [evalE]
    exact evBin_state (simple_state a s h.1) (simple_state b s h.2)
  | .index a b, s, h => by
    simp only [simple, Bool.and_eq_true] at h
    simp only [evalE]
    exact bind_fst (simple_state a s h.1) fun _ => bind_fst (simple_state b s h.2) fun _ => rfl
  | .length a, s, h => by
    simp only [simple] at h
    simp only [evalE]
    exact bind_fst (simple_state a s h) fun _ => rfl
  | .not a, s, h => by
    simp only [simple] at h
    simp only [evalE]
    exact bind_fst (simple_state a s h) fun _ => rfl
  | .call _ _, s, h => by simp [simple] at h
  | .callv _ _, s, h => by simp [simple] at h
  | .list _, s, h => by simp [simple] at h
  | .closure _ _, s, h => by simp [simple] at h

theorem bind_fst_congr {α β : Type} {r r' : Res α} {f : α → State → Res β} {s s' : State}
    (h : r.2 = s) (h' : r'.2 = s') (hr : r.1 = r'.1) (hf : ∀ a, (f a s).1 = (f a s').1) :
    (r.bind f).1 = (r'.bind f).1 := by
  rcases r with ⟨r, t⟩
  rcases r' with ⟨r', t'⟩
  simp only at h h' hr
  subst h h' hr
  cases r with
  | ok a => exact hf a
  | error e => rfl

theorem evBin_fst {op : BinOp} {fa fb : State → Res Value} {s s' : State} (ha : (fa s).2 = s)
    (ha' : (fa s').2 = s') (hb : (fb s).2 = s) (hb' : (fb s').2 = s') (ea : (fa s).1 = (fa s').1)
    (eb : (fb s).1 = (fb s').1) : (evBin I op fa fb s).1 = (evBin I op fa fb s').1 := by
  have hbo : (boolOut I.P (fb s)).1 = (boolOut I.P (fb s')).1 :=
    bind_fst_congr hb hb' eb fun _ => rfl
  unfold evBin
  split
  · refine bind_fst_congr ha ha' ea fun a => ?_
    split
    · exact hbo
    · rfl
  · refine bind_fst_congr ha ha' ea fun a => ?_
    split
    · rfl
    · exact hbo
  · exact bind_fst_congr ha ha' ea fun a => bind_fst_congr hb hb' eb fun b => rfl

/-- The value of a simple expression depends only on the names it reads. -/
theorem simple_congr : ∀ (e : Expr) (s s' : State), simple e = true →
    (∀ x ∈ names e, s.env.lookup x = s'.env.lookup x) → (evalE I e s).1 = (evalE I e s').1
  | .var x, s, s', _, h => by
    have := h x (by simp [names])
    simp only [evalE, evVar, this]
    split
    · split <;> rfl
    · rfl
  | .lit l, s, s', _, _ => by simp only [evalE]
  | .bin op a b, s, s', h, hn => by
    simp only [simple, Bool.and_eq_true] at h
    simp only [evalE]
    exact evBin_fst (simple_state a s h.1) (simple_state a s' h.1) (simple_state b s h.2)
      (simple_state b s' h.2) (simple_congr a s s' h.1 fun x hx => hn x (by simp [names, hx]))
      (simple_congr b s s' h.2 fun x hx => hn x (by simp [names, hx]))
  | .index a b, s, s', h, hn => by
    simp only [simple, Bool.and_eq_true] at h
    simp only [evalE]
    refine bind_fst_congr (simple_state a s h.1) (simple_state a s' h.1)
      (simple_congr a s s' h.1 fun x hx => hn x (by simp [names, hx])) fun _ => ?_
    exact bind_fst_congr (simple_state b s h.2) (simple_state b s' h.2)
      (simple_congr b s s' h.2 fun x hx => hn x (by simp [names, hx])) fun _ => rfl
  | .length a, s, s', h, hn => by
    simp only [simple] at h
    simp only [evalE]
    exact bind_fst_congr (simple_state a s h) (simple_state a s' h)
      (simple_congr a s s' h fun x hx => hn x (by simp [names, hx])) fun _ => rfl
  | .not a, s, s', h, hn => by
    simp only [simple] at h
    simp only [evalE]
    exact bind_fst_congr (simple_state a s h) (simple_state a s' h)
      (simple_congr a s s' h fun x hx => hn x (by simp [names, hx])) fun _ => rfl
  | .call _ _, s, s', h, _ => by simp [simple] at h
  | .callv _ _, s, s', h, _ => by simp [simple] at h
  | .list _, s, s', h, _ => by simp [simple] at h
  | .closure _ _, s, s', h, _ => by simp [simple] at h

end

/-! ## The cache -/

/-- What the cache and its index are made of, given what came before. -/
structure Ok (B : Before) (c : Cse) : Prop where
  held : ∀ k y, (k, y) ∈ c.cache → y ∈ B.held
  read : ∀ k y, (k, y) ∈ c.cache → ∀ z ∈ k.syms, z ∈ B.read
  deps : ∀ k y, (k, y) ∈ c.cache → ∀ z ∈ k.syms, (z, k) ∈ c.deps
  simp : ∀ k y, (k, y) ∈ c.cache → ∃ e, keyOf e = some k

/-- Names read or given are seen. -/
structure Wf (B : Before) : Prop where
  held : ∀ x ∈ B.held, x ∈ B.seen
  read : ∀ x ∈ B.read, x ∈ B.seen

theorem Ok.counter {B : Before} {c : Cse} (h : Ok B c) (n : Nat) : Ok B { c with counter := n } :=
  ⟨h.held, h.read, h.deps, h.simp⟩

theorem Ok.invalidate {B : Before} {c : Cse} (h : Ok B c) (x : Sym) :
    Ok B (c.invalidate x) ∧ (∀ p ∈ (c.invalidate x).cache, p ∈ c.cache) ∧
      ∀ k y, (k, y) ∈ (c.invalidate x).cache → x ∉ k.syms := by
  have hsub : ∀ p ∈ (c.invalidate x).cache, p ∈ c.cache := by
    intro p hp
    simp only [Cse.invalidate, List.mem_filter] at hp
    exact hp.1
  have hx : ∀ k y, (k, y) ∈ (c.invalidate x).cache → x ∉ k.syms := by
    intro k y hp hxs
    have hd := h.deps k y (hsub _ hp) x hxs
    simp only [Cse.invalidate, List.mem_filter] at hp
    have hm : k ∈ (c.deps.filter (·.1 == x)).map (·.2) := by
      rw [List.mem_map]
      exact ⟨(x, k), by simp [hd], rfl⟩
    simp only [Bool.not_eq_true', List.contains_eq_mem, decide_eq_false_iff_not] at hp
    exact hp.2 hm
  refine ⟨⟨fun k y hp => h.held k y (hsub _ hp), fun k y hp => h.read k y (hsub _ hp),
    fun k y hp z hz => ?_, fun k y hp => h.simp k y (hsub _ hp)⟩, hsub, hx⟩
  have hd := h.deps k y (hsub _ hp) z hz
  have hne : z ≠ x := by rintro rfl; exact hx k y hp hz
  simp [Cse.invalidate, hd, hne]

/-- What invalidating a set of names leaves. -/
structure Left (B : Before) (W : List Sym) (c c' : Cse) : Prop where
  ok : Ok B c'
  sub : ∀ p ∈ c'.cache, p ∈ c.cache
  out : ∀ k y, (k, y) ∈ c'.cache → ∀ x ∈ W, x ∉ k.syms

theorem Left.refl {B : Before} {c : Cse} (h : Ok B c) : Left B [] c c :=
  ⟨h, fun _ h => h, fun _ _ _ _ h => by simp at h⟩

theorem Left.trans {B : Before} {W W' : List Sym} {a b c : Cse} (h1 : Left B W a b)
    (h2 : Left B W' b c) : Left B (W ++ W') a c :=
  ⟨h2.ok, fun p hp => h1.sub p (h2.sub p hp), fun k y hp x hx => by
    rw [List.mem_append] at hx
    rcases hx with hx | hx
    · exact h1.out k y (h2.sub _ hp) x hx
    · exact h2.out k y hp x hx⟩

mutual
theorem invalidateS_left {B : Before} : ∀ (st : Stmt) (c : Cse), Ok B c →
    Left B (writesS st) c (invalidateS c st)
  | .set x e, c, h => by
    obtain ⟨h1, h2, h3⟩ := h.invalidate x
    exact ⟨h1, h2, fun k y hp z hz => by simp only [writesS, List.mem_singleton] at hz; subst hz; exact h3 k y hp⟩
  | .push x e, c, h => by
    obtain ⟨h1, h2, h3⟩ := h.invalidate x
    exact ⟨h1, h2, fun k y hp z hz => by simp only [writesS, List.mem_singleton] at hz; subst hz; exact h3 k y hp⟩
  | .ifS _ t e, c, h => by
    simp only [invalidateS, writesS]
    have h1 := invalidateSs_left t c h
    exact h1.trans (invalidateSs_left e _ h1.ok)
  | .whileS _ b, c, h => by
    simp only [invalidateS, writesS]
    exact invalidateSs_left b c h
  | .repeatS _ _ b, c, h => by
    simp only [invalidateS, writesS]
    exact invalidateSs_left b c h
  | .letS _ _ _ _, c, h => by simpa [invalidateS, writesS] using Left.refl h
  | .callS _ _, c, h => by simpa [invalidateS, writesS] using Left.refl h
  | .ret _, c, h => by simpa [invalidateS, writesS] using Left.refl h
  | .brk, c, h => by simpa [invalidateS, writesS] using Left.refl h
  | .funDef _ _ _, c, h => by simpa [invalidateS, writesS] using Left.refl h
  | .showS _, c, h => by simpa [invalidateS, writesS] using Left.refl h
  | .assertS _, c, h => by simpa [invalidateS, writesS] using Left.refl h

theorem invalidateSs_left {B : Before} : ∀ (ss : List Stmt) (c : Cse), Ok B c →
    Left B (writesSs ss) c (invalidateSs c ss)
  | [], c, h => by simpa [invalidateSs, writesSs] using Left.refl h
  | s :: ss, c, h => by
    simp only [invalidateSs, writesSs]
    have h1 := invalidateS_left s c h
    exact h1.trans (invalidateSs_left ss _ h1.ok)
end

theorem Ok.mono {B B' : Before} {c : Cse} (h : Ok B c) (hh : ∀ x ∈ B.held, x ∈ B'.held)
    (hr : ∀ x ∈ B.read, x ∈ B'.read) : Ok B' c :=
  ⟨fun k y hp => hh _ (h.held k y hp), fun k y hp z hz => hr _ (h.read k y hp z hz), h.deps, h.simp⟩

/-- The cache after a statement that is not a `Let`. -/
theorem cseS_left {tmp : Nat → Sym} {B : Before} (st : Stmt) (c : Cse) (hl : isLet st = false)
    (h : Ok B c) : Left B (writesS st) c (cseS tmp c st).2 := by
  cases st with
  | letS => simp [isLet] at hl
  | set x e => simpa [cseS, invalidateS] using invalidateS_left (.set x e) c h
  | push x e => simpa [cseS, invalidateS] using invalidateS_left (.push x e) c h
  | ifS a t e =>
    simp only [cseS]
    have := invalidateS_left (.ifS a t e) _ (h.counter
      (cseSs tmp { c with counter := (cseSs tmp c t).2.counter } e).2.counter)
    simp only [invalidateS] at this
    exact ⟨this.ok, this.sub, this.out⟩
  | whileS a b =>
    simp only [cseS]
    have := invalidateS_left (.whileS a b) _ (h.counter (cseSs tmp c b).2.counter)
    simp only [invalidateS] at this
    exact ⟨this.ok, this.sub, this.out⟩
  | repeatS x a b =>
    simp only [cseS]
    have := invalidateS_left (.repeatS x a b) _ (h.counter (cseSs tmp c b).2.counter)
    simp only [invalidateS] at this
    exact ⟨this.ok, this.sub, this.out⟩
  | funDef f ps b =>
    simp only [cseS, writesS]
    exact ⟨h.counter _, fun _ h => h, fun _ _ _ _ h => by simp at h⟩
  | _ => simpa [cseS, writesS] using Left.refl h

mutual
theorem safe_held {G : List Sym} : ∀ (st : Stmt) (B : Before) (top : Bool), safeS G B top st →
    ∀ x ∈ writesS st, x ∉ B.held
  | .set _ _, B, top, h, x, hx => by
    simp only [writesS, List.mem_singleton] at hx; subst hx; simpa [safeS] using h
  | .push _ _, B, top, h, x, hx => by
    simp only [writesS, List.mem_singleton] at hx; subst hx; simpa [safeS] using h
  | .ifS _ t e, B, top, h, x, hx => by
    simp only [safeS] at h
    simp only [writesS, List.mem_append] at hx
    rcases hx with hx | hx
    · exact safe_helds t B false h.1 x hx
    · exact safe_helds e B false h.2 x hx
  | .whileS _ b, B, top, h, x, hx => by
    simp only [safeS] at h
    simp only [writesS] at hx
    exact safe_helds b B false h.2 x hx
  | .repeatS _ _ b, B, top, h, x, hx => by
    simp only [safeS] at h
    simp only [writesS] at hx
    exact safe_helds b _ false h.2.2 x hx
  | .letS _ _ _ _, B, top, _, x, hx => by simp [writesS] at hx
  | .callS _ _, B, top, _, x, hx => by simp [writesS] at hx
  | .ret _, B, top, _, x, hx => by simp [writesS] at hx
  | .brk, B, top, _, x, hx => by simp [writesS] at hx
  | .funDef _ _ _, B, top, _, x, hx => by simp [writesS] at hx
  | .showS _, B, top, _, x, hx => by simp [writesS] at hx
  | .assertS _, B, top, _, x, hx => by simp [writesS] at hx

theorem safe_helds {G : List Sym} : ∀ (ss : List Stmt) (B : Before) (top : Bool), safeSs G B top ss →
    ∀ x ∈ writesSs ss, x ∉ B.held
  | [], B, top, _, x, hx => by simp [writesSs] at hx
  | s :: ss, B, top, h, x, hx => by
    simp only [safeSs] at h
    simp only [writesSs, List.mem_append] at hx
    rcases hx with hx | hx
    · exact safe_held s B top h.1 x hx
    · have := safe_helds ss _ top h.2 x hx
      intro hb
      apply this
      cases s <;> simp [Before.after, hb]
end

theorem Wf.after {B : Before} (h : Wf B) (top : Bool) (st : Stmt) : Wf (B.after top st) := by
  cases st with
  | letS x b m e =>
    constructor
    · intro y hy
      simp only [Before.after, List.mem_append] at hy
      simp only [Before.after, List.mem_cons, List.mem_append]
      rcases hy with hy | hy
      · split at hy <;> simp at hy; exact .inl hy
      · exact .inr (.inr (h.held y hy))
    · intro y hy
      simp only [Before.after, List.mem_append] at hy
      simp only [Before.after, List.mem_cons, List.mem_append]
      rcases hy with hy | hy
      · exact .inr (.inl hy)
      · exact .inr (.inr (h.read y hy))
  | _ => exact h

theorem Ok.after {B : Before} {c : Cse} (h : Ok B c) (top : Bool) (st : Stmt) :
    Ok (B.after top st) c := by
  refine h.mono ?_ ?_ <;> cases st <;> simp [Before.after] <;> intro x hx <;> exact .inr hx

theorem Ok.remember {B : Before} {c : Cse} {x : Sym} {b m top : Bool} {e : Expr} (h : Ok B c) :
    Ok (B.after top (.letS x b m e)) (c.remember e x) := by
  unfold Cse.remember
  split
  · rename_i k hk
    split
    · rename_i hn
      have hre : reusable e = true := by
        have := keyOf_simple e
        rw [hk] at this
        rw [nonTrivial_eq] at hn
        simp [reusable, ← this, hn]
      have h' := h.after top (.letS x b m e)
      have hmem : ∀ k' y, (k', y) ∈ (c.insert k x).cache → (k' = k ∧ y = x) ∨ (k', y) ∈ c.cache := by
        intro k' y hp
        simp only [Cse.insert, List.mem_cons, Prod.mk.injEq, List.mem_filter] at hp
        rcases hp with hp | hp
        · exact .inl hp
        · exact .inr hp.1
      constructor
      · intro k' y hp
        rcases hmem k' y hp with ⟨rfl, rfl⟩ | hp
        · simp [Before.after, hre]
        · exact h'.held k' y hp
      · intro k' y hp z hz
        rcases hmem k' y hp with ⟨rfl, rfl⟩ | hp
        · rw [keyOf_names e _ hk] at hz
          simp [Before.after, hre, hz]
        · exact h'.read k' y hp z hz
      · intro k' y hp z hz
        rcases hmem k' y hp with ⟨rfl, rfl⟩ | hp
        · simp [Cse.insert, hz]
        · simp only [Cse.insert, List.mem_append]
          exact .inr (h'.deps k' y hp z hz)
      · intro k' y hp
        rcases hmem k' y hp with ⟨rfl, rfl⟩ | hp
        · exact ⟨e, hk⟩
        · exact h'.simp k' y hp
    · exact h.after _ _
  · exact h.after _ _

theorem lookup_mem {c : Cse} {k : Key} {y : Sym} (h : c.lookup k = some y) : (k, y) ∈ c.cache := by
  simp only [Cse.lookup, Option.map_eq_some_iff] at h
  obtain ⟨p, h1, rfl⟩ := h
  have h2 := List.mem_of_find?_eq_some h1
  have h3 := List.find?_some h1
  simp only [beq_iff_eq] at h3
  rw [← h3]
  exact h2

/-! ## The invariant -/

/-- Every cached name holds the value of its computation, and nothing a call can do changes
that. -/
def Holds (I : Inst) (G : List Sym) (c : Cse) (s : State) : Prop :=
  ∀ e k y, keyOf e = some k → (k, y) ∈ c.cache →
    ∃ v, evalE I e s = (.ok v, s) ∧ s.env.lookup y = some v ∧
      ∀ z, z = y ∨ z ∈ names e → z ∉ G ∨ (s.env.cur z).isSome = true

/-- The names of the current function or block are in its frame. -/
def Own (B : Before) (s : State) : Prop := ∀ x ∈ B.own, (s.env.cur x).isSome = true

section
variable {I : Inst} {G : List Sym} {c : Cse} {B : Before}

theorem Holds.mono {c' : Cse} {s : State} (h : Holds I G c s) (hs : ∀ p ∈ c'.cache, p ∈ c.cache) :
    Holds I G c' s := fun e k y hk hp => h e k y hk (hs _ hp)

/-- Names that stay as they were keep the invariant. -/
theorem Holds.same {s s' : State} (h : Holds I G c s)
    (hz : ∀ k y, (k, y) ∈ c.cache → ∀ z, z = y ∨ z ∈ k.syms →
      (z ∉ G ∨ (s.env.cur z).isSome = true) →
      s'.env.lookup z = s.env.lookup z ∧ (s'.env.cur z).isSome = (s.env.cur z).isSome) :
    Holds I G c s' := by
  intro e k y hk hp
  obtain ⟨v, h1, h2, h3⟩ := h e k y hk hp
  have hs : simple e = true := by rw [← keyOf_simple, hk]; rfl
  have hall : ∀ z, z = y ∨ z ∈ names e → s'.env.lookup z = s.env.lookup z ∧
      (s'.env.cur z).isSome = (s.env.cur z).isSome := by
    intro z hz'
    refine hz k y hp z ?_ (h3 z hz')
    rw [keyOf_names e k hk]
    exact hz'
  refine ⟨v, ?_, ?_, ?_⟩
  · have e1 := simple_congr (I := I) e s s' hs fun x hx => ((hall x (.inr hx)).1).symm
    have e2 := simple_state (I := I) e s' hs
    rw [h1] at e1
    exact Prod.ext e1.symm e2
  · rw [(hall y (.inl rfl)).1, h2]
  · intro z hz'
    rw [(hall z hz').2]
    exact h3 z hz'

theorem lookup_effB {X : Sym → Prop} {s s' : State} (he : EffB (· ∈ G) X s s') {z : Sym}
    (hX : ¬ X z) (hs : z ∉ G ∨ (s.env.cur z).isSome = true) :
    s'.env.lookup z = s.env.lookup z ∧ (s'.env.cur z).isSome = (s.env.cur z).isSome := by
  obtain ⟨c1, c2⟩ := he.cur z
  refine ⟨?_, c1⟩
  rw [lookup_cur, lookup_cur, c2 hX]
  cases hc : s.env.cur z with
  | some v => rfl
  | none =>
    simp only [Option.none_or]
    refine (he.globals z).2 ?_
    rintro (hg | hx)
    · rcases hs with hs | hs
      · exact hs hg
      · simp [hc] at hs
    · exact hX hx

theorem Holds.effB {X : Sym → Prop} {s s' : State} (h : Holds I G c s) (he : EffB (· ∈ G) X s s')
    (hX : ∀ k y, (k, y) ∈ c.cache → ∀ z, z = y ∨ z ∈ k.syms → ¬ X z) : Holds I G c s' :=
  h.same fun k y hp z hz hs => lookup_effB he (hX k y hp z hz) hs

theorem Holds.effE {s s' : State} (h : Holds I G c s) (he : EffE (· ∈ G) s s') : Holds I G c s' :=
  h.effB (X := fun _ => False) he.toB (fun _ _ _ _ _ h => h)

theorem Own.effB {X : Sym → Prop} {s s' : State} (h : Own B s) (he : EffB (· ∈ G) X s s') :
    Own B s' := fun x hx => by rw [(he.cur x).1]; exact h x hx

theorem Own.effE {s s' : State} (h : Own B s) (he : EffE (· ∈ G) s s') : Own B s' :=
  h.effB (X := fun _ => False) he.toB

/-- Where a statement runs. -/
def At (top : Bool) (s : State) : Prop := if top then Top s else Nested s

theorem EffB.top {X : Sym → Prop} {s s' : State} (he : EffB (· ∈ G) X s s') (h : Top s) : Top s' := by
  refine ⟨he.frames.trans h.1, he.saves.trans h.2.1, fun x => ?_⟩
  have := (he.cur x).1
  simp only [Env.cur, he.frames, h.1, List.isEmpty_nil, if_true, h.2.2 x] at this
  simpa using this

theorem At.effB {X : Sym → Prop} {top : Bool} {s s' : State} (h : At top s)
    (he : EffB (· ∈ G) X s s') : At top s' := by
  cases top with
  | true => exact EffB.top he h
  | false =>
    rcases h with h | h
    · exact .inl (by rw [he.saves]; exact h)
    · exact .inr (by rw [he.frames]; exact h)

/-- A declaration gives its name the value and leaves the other names. -/
theorem At.define {top : Bool} {s : State} (h : At top s) (x : Sym) (v : Value) :
    At top (s.withEnv (·.define x v)) ∧ (s.withEnv (·.define x v)).env.lookup x = some v ∧
      (top = false → ((s.withEnv (·.define x v)).env.cur x).isSome = true) ∧
      ∀ z, z ≠ x → (s.withEnv (·.define x v)).env.lookup z = s.env.lookup z ∧
        (s.withEnv (·.define x v)).env.cur z = s.env.cur z := by
  cases top with
  | true =>
    have h : Top s := h
    obtain ⟨d1, d2⟩ := define_top h x v
    have hc0 : ∀ z, s.env.cur z = none := fun z => by
      simp only [Env.cur, h.1, List.isEmpty_nil, if_true]; exact h.2.2 z
    have hc : ∀ z, (s.withEnv (·.define x v)).env.cur z = none := fun z => by
      simp only [Env.cur, d1.1, List.isEmpty_nil, if_true]; exact d1.2.2 z
    refine ⟨d1, ?_, by simp, fun z hz => ⟨?_, by rw [hc, hc0]⟩⟩
    · rw [lookup_cur, hc, d2]; simp [VMap.put]
    · rw [lookup_cur, lookup_cur, hc, hc0, d2]; simp [VMap.put, hz]
  | false =>
    have h : Nested s := h
    obtain ⟨d1, d2⟩ := define_nested h x v
    refine ⟨?_, ?_, ?_, fun z hz => ⟨?_, ?_⟩⟩
    · rcases h with h | h
      · exact .inl (define_saves_ne h)
      · refine .inr ?_
        show (s.env.define x v).frames ≠ []
        unfold Env.define
        split
        · exact h
        · split <;> exact h
    · rw [lookup_cur]; simp only [State.withEnv, d1, VMap.put]; simp
    · intro _; simp only [State.withEnv, d1, VMap.put]; simp
    · rw [lookup_cur, lookup_cur]; simp only [State.withEnv, d1, d2, VMap.put, hz, if_false]
    · simp only [State.withEnv, d1, VMap.put, hz, if_false]

theorem Own.push {s : State} (h : Own B s) : Own B (s.withEnv (·.pushScope)) := h

theorem Holds.push {s : State} (h : Holds I G c s) : Holds I G c (s.withEnv (·.pushScope)) :=
  h.same fun _ _ _ _ _ _ => ⟨rfl, rfl⟩

theorem At.pushed (s : State) : At false (s.withEnv (·.pushScope)) :=
  .inl (by simp [State.withEnv, Env.pushScope])

end

/-! ## Simulation -/

/-- Bodies and their forms after the pass. -/
def cseCorr (tmp : Nat → Sym) (G : List Sym) : Corr where
  body b b' := safeSs G {} false b ∧ (∀ x ∈ allWritesSs b, x ∈ G) ∧
    ∃ k, b' = (cseSs tmp { counter := k } b).1
  clo b b' := b = b'
  bad _ := False

section
variable {P : Prims} {tmp : Nat → Sym} {G : List Sym} {I : Inst}

theorem cse_funInv {s t : State} (h : (cseCorr tmp G).st s t) : FunInv (· ∈ G) s := by
  intro f fd hfd x hx
  rcases h.funs f with ⟨h1, _⟩ | ⟨a, b, h1, _, hab⟩
  · rw [h1] at hfd; cases hfd
  · rw [h1] at hfd; cases hfd
    exact hab.2.2.1 x hx

/-- The hypotheses every step of the simulation uses. -/
structure CseHyp (tmp : Nat → Sym) (G : List Sym) (I : Inst) : Prop where
  reads : ∀ x v, I.reads x v = true
  calls : (cseCorr tmp G).calls I I
  eff : CallsEff (· ∈ G) I

theorem CseHyp.expr (h : CseHyp tmp G I) (e : Expr) :
    (cseCorr tmp G).simF (evalE I e) (evalE I e) := sameE_sim h.calls (fun _ => rfl) e

/-- Replacing a computation by the name that holds it. -/
theorem cross_sim (h : CseHyp tmp G I) {c : Cse} (e : Expr) {s t : State} (hh : Holds I G c s)
    (hst : (cseCorr tmp G).st s t) :
    (cseCorr tmp G).sim (evalE I e s) (evalE I (crossE c e) t) := by
  unfold crossE
  split
  · rename_i k hk
    split
    · split
      · rename_i y hy
        obtain ⟨v, h1, h2, _⟩ := hh e k y hk (lookup_mem hy)
        have h3 : evalE I (.var y) t = (.ok v, t) := by
          simp only [evalE, evVar, ← hst.env, h2, h.reads, if_true]
        rw [h1, h3]
        exact sim_ret _ hst
      · exact h.expr e s t hst
    · exact h.expr e s t hst
  · exact h.expr e s t hst

theorem execs_single (n : Nat) (st : Stmt) (s : State) : execs I n [st] s = exec I n st s := by
  simp only [execs]
  rcases exec I n st s with ⟨r, s'⟩
  cases r with
  | ok fl => cases fl <;> rfl
  | error e => rfl

/-- The rounds of a `Repeat`. -/
theorem cseRep_sim (x : Sym) {n : Nat} {b b' : List Stmt} {c : Cse} {B B' : Before}
    (hB' : ∀ y ∈ B'.own, y = x ∨ y ∈ B.own)
    (hX : ∀ k y, (k, y) ∈ c.cache → ∀ z, z = y ∨ z ∈ k.syms → z ∉ writesSs b)
    (hxz : ∀ k y, (k, y) ∈ c.cache → ∀ z, z = y ∨ z ∈ k.syms → z ≠ x)
    (hsim : ∀ s t, At false s → Holds I G c s → Own B' s → (cseCorr tmp G).st s t →
      (cseCorr tmp G).sim (execs I n b s) (execs I n b' t))
    (heff : ∀ s fl s', FunInv (· ∈ G) s → s.env.saves ≠ [] → execs I n b s = (.ok fl, s') →
      EffS (· ∈ G) (· ∈ writesSs b) s s') :
    ∀ (vs : List Value) (s t : State), s.env.saves ≠ [] → Holds I G c s → Own B s →
      (cseCorr tmp G).st s t →
      (cseCorr tmp G).sim (eachItem x (inScope (execs I n b)) vs s)
        (eachItem x (inScope (execs I n b')) vs t)
  | [], s, t, _, _, _, hst => sim_ret _ hst
  | v :: vs, s, t, hn, hh, ho, hst => by
    have hat : At false s := .inl hn
    obtain ⟨d1, d2, d3, d4⟩ := hat.define x v
    have hst1 := st_env hst (·.define x v)
    have hn1 : (s.withEnv (·.define x v)).env.saves ≠ [] := define_saves_ne hn
    generalize hs1 : s.withEnv (·.define x v) = s1 at *
    have hh1 : Holds I G c s1 := hh.same fun k y hp z hz _ => by
      have := d4 z (hxz k y hp z hz)
      rw [this.1, this.2]; exact ⟨rfl, rfl⟩
    have ho1 : Own B s1 := fun z hz => by
      by_cases hzx : z = x
      · subst hzx; exact d3 rfl
      · rw [(d4 z hzx).2]; exact ho z hz
    have ho1' : Own B' s1 := fun z hz => by
      rcases hB' z hz with rfl | hz
      · exact d3 rfl
      · exact ho1 z hz
    simp only [eachItem, hs1]
    refine sim_bindP (simI_inScope (C := cseCorr tmp G) (Inv := fun s => Holds I G c s ∧ Own B' s)
      (Inv' := fun s => At false s ∧ Holds I G c s ∧ Own B' s)
      (fun s t hi hst => hsim s t hi.1 hi.2.1 hi.2.2 hst)
      (fun s hi => ⟨At.pushed s, hi.1.push, hi.2.push⟩) s1 _ ⟨hh1, ho1'⟩ hst1) fun fl s2 t2 h2 _ h'' => ?_
    have e1 := inScope_eff heff (cse_funInv hst1) h2
    cases fl with
    | cont =>
      exact cseRep_sim x hB' hX hxz hsim heff vs s2 t2 (by rw [e1.saves]; exact hn1)
        (hh1.effB e1 hX) (ho1.effB e1) h''
    | brk => exact sim_ret _ h''
    | ret v => exact sim_ret _ h''

mutual
theorem cseS_sim (h : CseHyp tmp G I) (n : Nat) : ∀ (st : Stmt) (c : Cse) (B : Before) (top : Bool),
    safeS G B top st → Ok B c → Wf B → (∀ x ∈ funWritesS st, x ∈ G) →
    ∃ st', (cseS tmp c st).1 = [st'] ∧ ∀ s t, Holds I G c s → Own B s → (cseCorr tmp G).st s t →
      (cseCorr tmp G).sim (exec I n st s) (exec I n st' t)
  | .letS x b m e, c, B, top, hs, hok, hw, _ => by
    simp only [safeS] at hs
    refine ⟨.letS x b m (crossE c e), by simp [cseS, no_dupes hs.2.1], ?_⟩
    intro s t hh _ hst
    simp only [exec]
    exact sim_bind (cross_sim h e hh hst) fun v => simF_doDefine x v
  | .set x e, c, B, top, hs, hok, hw, _ => by
    refine ⟨.set x e, by simp [cseS], ?_⟩
    intro s t hh _ hst
    simp only [exec]
    exact sim_bind (h.expr e s t hst) fun v => simF_doAssign x v
  | .push x e, c, B, top, hs, hok, hw, _ => by
    refine ⟨.push x e, by simp [cseS], ?_⟩
    intro s t hh _ hst
    simp only [exec]
    exact sim_bind (h.expr e s t hst) fun v => simF_doPush x v
  | .callS f args, c, B, top, hs, hok, hw, _ => by
    refine ⟨.callS f args, by simp [cseS], ?_⟩
    intro s t hh _ hst
    simp only [exec]
    exact sim_bind (h.expr _ s t hst) fun v => simF_lift _
  | .ret none, c, B, top, hs, hok, hw, _ => by
    refine ⟨.ret none, by simp [cseS], ?_⟩
    intro s t hh _ hst
    simp only [exec]; exact sim_ret _ hst
  | .ret (some e), c, B, top, hs, hok, hw, _ => by
    refine ⟨.ret (some e), by simp [cseS], ?_⟩
    intro s t hh _ hst
    simp only [exec]
    exact sim_bind (h.expr e s t hst) fun v => simF_lift _
  | .brk, c, B, top, hs, hok, hw, _ => by
    refine ⟨.brk, by simp [cseS], ?_⟩
    intro s t hh _ hst
    simp only [exec]; exact sim_ret _ hst
  | .showS e, c, B, top, hs, hok, hw, _ => by
    refine ⟨.showS e, by simp [cseS], ?_⟩
    intro s t hh _ hst
    simp only [exec]
    exact sim_bind (h.expr e s t hst) fun v => simF_doShow v
  | .assertS e, c, B, top, hs, hok, hw, _ => by
    refine ⟨.assertS e, by simp [cseS], ?_⟩
    intro s t hh _ hst
    simp only [exec]
    exact sim_bind (h.expr e s t hst) fun v => simF_doAssert v
  | .funDef f ps b, c, B, top, hs, hok, hw, hg => by
    simp only [safeS] at hs
    refine ⟨.funDef f ps (cseSs tmp { counter := c.counter } b).1, by simp [cseS], ?_⟩
    intro s t hh _ hst
    simp only [exec]
    exact sim_ret _ (st_defineFun hst f ⟨rfl, hs, fun x hx => hg x (by simpa [funWritesS] using hx),
      ⟨c.counter, rfl⟩⟩)
  | .ifS a th el, c, B, top, hs, hok, hw, hg => by
    simp only [safeS] at hs
    refine ⟨.ifS a (cseSs tmp c th).1 (cseSs tmp { c with counter := (cseSs tmp c th).2.counter } el).1,
      by simp only [cseS], ?_⟩
    intro s t hh ho hst
    simp only [exec]
    refine sim_bindP (h.expr a s t hst) fun v s' t' h1 _ h' => ?_
    have e1 := evalE_eff h.eff a s v s' (cse_funInv hst) h1
    have hh' := hh.effE e1
    have ho' := ho.effE e1
    split
    · exact simI_inScope (Inv := fun s => Holds I G c s ∧ Own B s)
        (Inv' := fun s => At false s ∧ Holds I G c s ∧ Own B s)
        (fun s t hi hst => cseSs_sim h n th c B false hs.1 hok hw
          (fun x hx => hg x (by simp [funWritesS, hx])) s t hi.1 hi.2.1 hi.2.2 hst)
        (fun s hi => ⟨At.pushed s, hi.1.push, hi.2.push⟩) s' t' ⟨hh', ho'⟩ h'
    · exact simI_inScope (Inv := fun s => Holds I G c s ∧ Own B s)
        (Inv' := fun s => At false s ∧ Holds I G c s ∧ Own B s)
        (fun s t hi hst => cseSs_sim h n el
          { c with counter := (cseSs tmp c th).2.counter } B false hs.2 (hok.counter _) hw
          (fun x hx => hg x (by simp [funWritesS, hx])) s t hi.1 hi.2.1 hi.2.2 hst)
        (fun s hi => ⟨At.pushed s, hi.1.push, hi.2.push⟩) s' t' ⟨hh', ho'⟩ h'
  | .whileS a b, c, B, top, hs, hok, hw, hg => by
    simp only [safeS] at hs
    refine ⟨.whileS a (cseSs tmp c b).1, by simp only [cseS], ?_⟩
    intro s t hh ho hst
    simp only [exec]
    have hX : ∀ k y, (k, y) ∈ c.cache → ∀ z, z = y ∨ z ∈ k.syms → z ∉ writesSs b := by
      intro k y hp z hz hzb
      rcases hz with rfl | hz
      · exact safe_helds b B false hs.2 z hzb (hok.held k z hp)
      · exact hs.1 z hzb (hok.read k y hp z hz)
    refine simI_whileLoop (C := cseCorr tmp G) (Inv := fun s => Holds I G c s ∧ Own B s)
      (fun s t hi hst => h.expr a s t hst) ?_ ?_ ?_ n s t ⟨hh, ho⟩ hst
    · exact simI_inScope (Inv := fun s => Holds I G c s ∧ Own B s)
        (Inv' := fun s => At false s ∧ Holds I G c s ∧ Own B s)
        (fun s t hi hst => cseSs_sim h n b c B false hs.2 hok hw
          (fun x hx => hg x (by simpa [funWritesS] using hx)) s t hi.1 hi.2.1 hi.2.2 hst)
        (fun s hi => ⟨At.pushed s, hi.1.push, hi.2.push⟩)
    · intro s t v s' hi hst h1
      have e1 := evalE_eff h.eff a s v s' (cse_funInv hst) h1
      exact ⟨hi.1.effE e1, hi.2.effE e1⟩
    · intro s t v s' hi hst h1
      have e1 := inScope_eff (X := fun x => x ∈ writesSs b)
        (fun s fl s' hi hs h1 => execs_eff h.eff n b s fl s' (.inl hs)
          (fun x hx => hx) (fun x hx => hg x (by simpa [funWritesS] using hx)) hi h1)
          (cse_funInv hst) h1
      exact ⟨hi.1.effB e1 hX, hi.2.effB e1⟩
  | .repeatS x a b, c, B, top, hs, hok, hw, hg => by
    simp only [safeS] at hs
    refine ⟨.repeatS x a (cseSs tmp c b).1, by simp only [cseS], ?_⟩
    intro s t hh ho hst
    simp only [exec]
    have hX : ∀ k y, (k, y) ∈ c.cache → ∀ z, z = y ∨ z ∈ k.syms → z ∉ writesSs b := by
      intro k y hp z hz hzb
      rcases hz with rfl | hz
      · exact safe_helds b _ false hs.2.2 z hzb (hok.held k z hp)
      · exact hs.1 z hzb (hok.read k y hp z hz)
    have hxz : ∀ k y, (k, y) ∈ c.cache → ∀ z, z = y ∨ z ∈ k.syms → z ≠ x := by
      rintro k y hp z hz rfl
      rcases hz with rfl | hz
      · exact hs.2.1 (hw.held _ (hok.held k _ hp))
      · exact hs.2.1 (hw.read _ (hok.read k y hp _ hz))
    refine sim_bindP (h.expr a s t hst) fun v s' t' h1 _ h' => ?_
    have e1 := evalE_eff h.eff a s v s' (cse_funInv hst) h1
    refine sim_bindP (sim_ret _ h') fun vs s2 t2 h2 _ h'' => ?_
    have e2 : s2 = s' := (congrArg Prod.snd h2).symm
    subst e2
    refine simI_inScope (Inv := fun s => Holds I G c s ∧ Own B s)
      (Inv' := fun s => s.env.saves ≠ [] ∧ Holds I G c s ∧ Own B s)
      (fun s t hi hst => ?_)
      (fun s hi => ⟨by simp [State.withEnv, Env.pushScope], hi.1.push, hi.2.push⟩) _ _
      ⟨hh.effE e1, ho.effE e1⟩ h''
    clear h1 h2 h' h'' e1
    exact cseRep_sim x (c := c) (B := B) (fun y hy => by simpa using hy) hX hxz
      (fun s t h1 h2 h3 h4 => cseSs_sim h n b c { B with seen := x :: B.seen, own := x :: B.own } false
        hs.2.2 (hok.mono (fun _ h => h) (fun _ h => h))
        ⟨fun y hy => by simp [hw.held y hy], fun y hy => by simp [hw.read y hy]⟩
        (fun x hx => hg x (by simpa [funWritesS] using hx)) s t h1 h2 h3 h4)
      (fun s fl s' hi hs h1 => execs_eff h.eff n b s fl s' (.inl hs)
          (fun x hx => hx) (fun x hx => hg x (by simpa [funWritesS] using hx)) hi h1)
      vs s t hi.1 hi.2.1 hi.2.2 hst

theorem cseSs_sim (h : CseHyp tmp G I) (n : Nat) : ∀ (ss : List Stmt) (c : Cse) (B : Before) (top : Bool),
    safeSs G B top ss → Ok B c → Wf B → (∀ x ∈ funWritesSs ss, x ∈ G) → ∀ s t, At top s →
    Holds I G c s → Own B s → (cseCorr tmp G).st s t →
    (cseCorr tmp G).sim (execs I n ss s) (execs I n (cseSs tmp c ss).1 t)
  | [], c, B, top, _, _, _, _ => fun s t _ _ _ hst => by
    simp only [cseSs, execs]; exact sim_ret _ hst
  | st :: ss, c, B, top, hs, hok, hw, hg => by
    intro s t hat hh ho hst
    simp only [safeSs] at hs
    have hg1 : ∀ x ∈ funWritesS st, x ∈ G := fun x hx => hg x (by simp [funWritesSs, hx])
    obtain ⟨st', e1, hsim⟩ := cseS_sim h n st c B top hs.1 hok hw hg1
    simp only [cseSs, e1, List.singleton_append, execs]
    refine sim_bindP (hsim s t hh ho hst) fun fl s' t' h1 h2 h' => ?_
    cases fl with
    | brk => exact sim_ret _ h'
    | ret v => exact sim_ret _ h'
    | cont =>
      have key : At top s' ∧ Holds I G (cseS tmp c st).2 s' ∧ Own (B.after top st) s' ∧
          Ok (B.after top st) (cseS tmp c st).2 := by
        cases hlet : isLet st with
        | false =>
          have ef := exec_eff (X := fun x => x ∈ writesS st) h.eff n st s _ s' hlet
            (fun _ h => h) hg1 (cse_funInv hst) h1
          have hl := cseS_left (tmp := tmp) st c hlet hok
          have hB : B.after top st = B := by cases st <;> simp [isLet] at hlet <;> rfl
          refine ⟨hat.effB ef, (hh.mono hl.sub).effB ef ?_, by rw [hB]; exact ho.effB ef,
            by rw [hB]; exact hl.ok⟩
          intro k y hp z hz hzw
          rcases hz with rfl | hz
          · exact safe_held st B top hs.1 z hzw (hl.ok.held k z hp)
          · exact hl.out k y hp z hzw hz
        | true =>
          cases st <;> simp [isLet] at hlet
          rename_i x b m e
          simp only [safeS] at hs
          obtain ⟨⟨hx, hnd, hre⟩, _⟩ := hs
          simp only [exec, bind_ok_iff, doDefine, Prod.mk.injEq] at h1
          obtain ⟨v, s2, h3, _, rfl⟩ := h1
          have ef := evalE_eff h.eff _ _ _ _ (cse_funInv hst) h3
          have hat2 := hat.effB (X := fun _ => False) ef.toB
          have hh2 := hh.effE ef
          have ho2 := ho.effE ef
          obtain ⟨d1, d2, d3, d4⟩ := hat2.define x v
          have hc : (cseS tmp c (.letS x b m e)).2 = c.remember e x := by
            simp [cseS, no_dupes hnd]
          rw [hc]
          have hold : Holds I G c (s2.withEnv (·.define x v)) := by
            refine hh2.same fun k y hp z hz _ => ?_
            have hne : z ≠ x := by
              rintro rfl
              rcases hz with rfl | hz
              · exact hx (hw.held _ (hok.held k _ hp))
              · exact hx (hw.read _ (hok.read k y hp _ hz))
            rw [(d4 z hne).1, (d4 z hne).2]
            exact ⟨rfl, rfl⟩
          refine ⟨d1, ?_, ?_, hok.remember⟩
          · unfold Cse.remember
            split
            · rename_i k hk
              split
              · rename_i hn
                have hsm : simple e = true := by rw [← keyOf_simple, hk]; rfl
                have hr : reusable e = true := by
                  rw [nonTrivial_eq] at hn
                  simp [reusable, hsm, hn]
                obtain ⟨r1, r2, r3⟩ := hre hr
                intro e' k' y hk' hp
                simp only [Cse.insert, List.mem_cons, Prod.mk.injEq, List.mem_filter] at hp
                rcases hp with ⟨rfl, rfl⟩ | hp
                · have he : e' = e := by rw [← keyOf_expr e' _ hk', keyOf_expr e _ hk]
                  subst he
                  have hs2 : s2 = s := by
                    have := simple_state (I := I) e' s hsm
                    rw [h3] at this
                    exact this
                  subst hs2
                  have ne : ∀ z ∈ names e', z ≠ y := by rintro z hz rfl; exact r1 hz
                  have c1 := simple_congr (I := I) e' s2 (s2.withEnv (·.define y v)) hsm
                    fun z hz => ((d4 z (ne z hz)).1).symm
                  rw [h3] at c1
                  refine ⟨v, Prod.ext c1.symm (simple_state e' _ hsm), d2, ?_⟩
                  rintro z (rfl | hz)
                  · cases top with
                    | true => exact .inl (r3 rfl)
                    | false => exact .inr (d3 rfl)
                  · rw [(d4 z (ne z hz)).2]
                    rcases r2 z hz with r | r
                    · exact .inr (ho z r)
                    · exact .inl r
                · exact hold e' k' y hk' hp.1
              · exact hold
            · exact hold
          · intro z hz
            simp only [Before.after, List.mem_append] at hz
            by_cases hzx : z = x
            · subst hzx
              cases top with
              | false => exact d3 rfl
              | true =>
                rcases hz with hz | hz
                · simp at hz
                · have := ho2 z hz
                  have hT : Top s2 := hat2
                  simp only [Env.cur, hT.1, List.isEmpty_nil, if_true, hT.2.2 z] at this
                  simp at this
            · rw [(d4 z hzx).2]
              rcases hz with hz | hz
              · cases top <;> simp at hz; exact absurd hz hzx
              · exact ho2 z hz
      exact cseSs_sim h n ss _ _ top hs.2 key.2.2.2 (hw.after top st)
        (fun x hx => hg x (by simp [funWritesSs, hx])) s' t' key.1 key.2.1 key.2.2.1 h'
end

theorem ok_empty (B : Before) (k : Nat) : Ok B { counter := k } :=
  ⟨by simp, by simp, by simp, by simp⟩

theorem wf_empty : Wf {} := ⟨by simp, by simp⟩

theorem cse_calls (n : Nat) : (cseCorr tmp G).calls (plain P n) (plain P n) := by
  refine calls_inst ?_ ?_ n
  · rintro n hn b b' rfl
    exact sameE_sim hn (fun _ => rfl) b
  · rintro n hn b b' ⟨h1, h2, k, rfl⟩ s t hfr hst
    exact cseSs_sim ⟨fun _ _ => rfl, hn, callsEff_inst n⟩ n b _ {} false h1 (ok_empty _ _) wf_empty
      (fun x hx => h2 x ((allWritesSs_split b x).2 (.inr hx))) s t (.inr hfr)
      (by intro e k y _ hp; simp at hp) (by intro x hx; simp at hx) hst

/-- Sharing computations does not change what the program does. -/
theorem cse_run {n : Nat} {p : List Stmt} (h : safeProgram p) :
    run P n (cseProgram tmp p) = run P n p := by
  have h1 := cseSs_sim (tmp := tmp) (I := plain P n) ⟨fun _ _ => rfl, cse_calls n, callsEff_inst n⟩
    n p {} {} true h (ok_empty _ _) wf_empty (fun x hx => hx) {} {} ⟨rfl, rfl, fun _ => rfl⟩
    (by intro e k y _ hp; simp at hp) (by intro x hx; simp at hx) (st_empty _) (by intro e _ hb; exact hb)
  exact (outcome_eq h1).symm

end

end Verif.Lang.Gvn
