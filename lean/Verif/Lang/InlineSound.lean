import Verif.Lang.Inline
import Verif.Lang.FixedFuns

/-! # Inlining functions that read their parameters only -/
namespace Verif.Lang.Inline
open Fixed CallSpec

/-- The value of a literal or a name. -/
inductive AtomVal (e : Env) : Expr → Value → Prop where
  | lit (l) : AtomVal e (.lit l) (litVal l)
  | var {x v} : e.lookup x = some v → AtomVal e (.var x) v

theorem AtomVal.eval {P : Prims} {n : Nat} {s : State} {a : Expr} {v : Value}
    (h : AtomVal s.env a v) : evalE (plain P n) a s = (.ok v, s) := by
  cases h with
  | lit l => simp [evalE]
  | var h => simp [evalE, evVar, h, plain, inst]

theorem atomVals {P : Prims} {n : Nat} {s : State} : ∀ {as : List Expr} {vs : List Value},
    as.all atom = true → evalEs (plain P n) as s = (.ok vs, s) →
    List.Forall₂ (AtomVal s.env) as vs
  | [], vs, _, h => by
    simp only [evalEs, Prod.mk.injEq, Except.ok.injEq] at h
    rw [← h.1]
    exact .nil
  | a :: as, vs, ha, h => by
    simp only [List.all_cons, Bool.and_eq_true] at ha
    have h1 : ∃ v, AtomVal s.env a v := by
      cases a with
      | lit l => exact ⟨_, .lit l⟩
      | var x =>
        cases hx : s.env.lookup x with
        | none => simp [evalEs, evalE, evVar, hx, Res.bind] at h
        | some v => exact ⟨v, .var hx⟩
      | _ => simp [atom] at ha
    obtain ⟨v, hv⟩ := h1
    obtain ⟨r, g1, _, g3⟩ := atoms_eval (P := P) n s.funs s as ha.2
    simp only [evalEs, hv.eval (P := P) (n := n), g1, Res.bind] at h
    cases r with
    | error e => simp at h
    | ok ws =>
      simp only [Prod.mk.injEq, Except.ok.injEq, and_true] at h
      rw [← h]
      exact .cons hv (atomVals ha.2 g1)

/-- Parameters bound to arguments and to their values agree. -/
theorem bind_agree {e0 : Env} : ∀ {ps : List Sym} {as : List Expr} {vs : List Value}
    {m : Sym → Option Expr} {e : Env}, ps.length = as.length →
    List.Forall₂ (AtomVal e0) as vs → e.frames ≠ [] →
    (∀ x a, m x = some a → ∃ v, e.locals x = some v ∧ AtomVal e0 a v) →
    (∀ x a, bindArgs ps as m x = some a → ∃ v, (bindParams ps vs e).locals x = some v ∧
      AtomVal e0 a v) ∧ (∀ x, x ∈ ps ∨ (m x).isSome = true → (bindArgs ps as m x).isSome = true)
  | [], as, vs, m, e, _, _, _, h => by
    simp only [bindArgs, bindParams]
    exact ⟨h, by simp⟩
  | p :: ps, [], vs, m, e, hl, _, _, _ => by simp at hl
  | p :: ps, a :: as, _, m, e, hl, .cons (b := v) (l₂ := vs) hv hvs, hf, h => by
    simp only [bindArgs, bindParams]
    have hfe : e.frames.isEmpty = false := by
      cases hc : e.frames with
      | nil => exact absurd hc hf
      | cons _ _ => rfl
    have hl' : ps.length = as.length := by simpa using hl
    have := bind_agree (m := fun y => if y = p then some a else m y) (e := e.define p v) hl' hvs
      (by simpa [Env.define, hfe] using hf) (by
        intro x a' hx
        simp only [Env.define, hfe, Bool.not_false, if_true, VMap.put]
        by_cases hxp : x = p
        · simp only [hxp, if_true, Option.some.injEq] at hx ⊢
          exact ⟨v, rfl, hx ▸ hv⟩
        · simp only [hxp, if_false] at hx ⊢
          exact h x a' hx)
    refine ⟨this.1, fun x hx => this.2 x ?_⟩
    by_cases hxp : x = p
    · right; simp [hxp]
    · rcases hx with hx | hx
      · left
        simpa [hxp] using hx
      · right
        simpa [hxp] using hx

/-- An inlined expression has the value the body has in its frame. -/
theorem subst_eval {P : Prims} {n n' : Nat} {m : Sym → Option Expr} {s t : State} :
    ∀ (b : Expr), inlinable b = true →
      (∀ x ∈ reads b, ∃ a v, m x = some a ∧ s.env.lookup x = some v ∧ AtomVal t.env a v) →
      ∃ r, evalE (plain P n') b s = (r, s) ∧ evalE (plain P n) (subst m b) t = (r, t)
  | .lit l, _, _ => ⟨.ok (litVal l), by simp [evalE], by simp [evalE, subst]⟩
  | .var x, _, h => by
    obtain ⟨a, v, h1, h2, h3⟩ := h x (by simp [reads])
    refine ⟨.ok v, (AtomVal.var h2).eval, ?_⟩
    simp only [subst, h1, Option.getD_some]
    exact h3.eval
  | .bin op a b, hi, h => by
    simp only [inlinable, Bool.and_eq_true] at hi
    obtain ⟨ra, a1, a2⟩ := subst_eval (P := P) (n := n) (n' := n') a hi.1
      (fun x hx => h x (by simp [reads, hx]))
    obtain ⟨rb, b1, b2⟩ := subst_eval (P := P) (n := n) (n' := n') b hi.2
      (fun x hx => h x (by simp [reads, hx]))
    simp only [evalE, subst]
    cases ra with
    | error e =>
      exact ⟨.error e, by unfold evBin; split <;> simp [a1, Res.bind],
        by unfold evBin; split <;> simp [a2, Res.bind]⟩
    | ok va =>
      have hP : (plain P n).P = (plain P n').P := rfl
      have hap : (plain P n).ap = (plain P n').ap := rfl
      unfold evBin
      simp only [a1, a2, Res.bind, b1, b2, hP, hap, boolOut]
      cases op <;> simp only <;> first
        | (by_cases ht : truthy (plain P n').P va = true <;> simp only [ht, if_true, if_false] <;>
            first
            | exact ⟨_, rfl, rfl⟩
            | (cases rb <;> exact ⟨_, rfl, rfl⟩))
        | (cases rb <;> exact ⟨_, rfl, rfl⟩)
  | .not a, hi, h => by
    simp only [inlinable] at hi
    obtain ⟨ra, a1, a2⟩ := subst_eval (P := P) (n := n) (n' := n') a hi
      (fun x hx => h x (by simp [reads, hx]))
    simp only [evalE, subst, a1, a2]
    cases ra with
    | error e => exact ⟨.error e, rfl, rfl⟩
    | ok v => exact ⟨_, rfl, rfl⟩
  | .call _ _, hi, _ => by simp [inlinable] at hi
  | .callv _ _, hi, _ => by simp [inlinable] at hi
  | .list _, hi, _ => by simp [inlinable] at hi
  | .index _ _, hi, _ => by simp [inlinable] at hi
  | .length _, hi, _ => by simp [inlinable] at hi
  | .closure _ _, hi, _ => by simp [inlinable] at hi

/-- The rule the pass follows. -/
def rule (B : Bodies) : Rule := fun f as e =>
  ∃ ps body, B f = some (ps, body) ∧ ps.length = as.length ∧ as.all atomic = true ∧
    e = subst (bindArgs ps as fun _ => none) body

mutual
theorem inlineE_rel (B : Bodies) : ∀ e, RelE (rule B) e (inlineE B e)
  | .call f args => by
    have ih := inlineEs_rel B args
    simp only [inlineE]
    split
    · rename_i ps body hB
      split
      · rename_i hc
        exact .rule ih ⟨ps, body, hB, hc.1, hc.2, rfl⟩
      · exact .call f ih
    · exact .call f ih
  | .bin op a b => by simp only [inlineE]; exact .bin op (inlineE_rel B a) (inlineE_rel B b)
  | .not a => by simp only [inlineE]; exact .not (inlineE_rel B a)
  | .index c i => by simp only [inlineE]; exact .index (inlineE_rel B c) (inlineE_rel B i)
  | .length c => by simp only [inlineE]; exact .length (inlineE_rel B c)
  | .lit l => by simp only [inlineE]; exact .lit l
  | .var x => by simp only [inlineE]; exact .var x
  | .callv c as => by simp only [inlineE]; exact RelE.refl _
  | .list as => by simp only [inlineE]; exact RelE.refl _
  | .closure ps b => by simp only [inlineE]; exact RelE.refl _

theorem inlineEs_rel (B : Bodies) : ∀ es, RelEs (rule B) es (inlineEs B es)
  | [] => .nil
  | e :: es => by simp only [inlineEs]; exact .cons (inlineE_rel B e) (inlineEs_rel B es)
end

mutual
theorem inlineS_rel (B : Bodies) : ∀ s, plainS s = true → RelS (rule B) s (inlineS B s)
  | .letS x b m e, _ => by simp only [inlineS]; exact .letS x b m (inlineE_rel B e)
  | .set x e, _ => by simp only [inlineS]; exact .set x (inlineE_rel B e)
  | .callS f as, _ => by simp only [inlineS]; exact .callS f (inlineEs_rel B as)
  | .ifS c t e, h => by
    simp only [plainS, Bool.and_eq_true] at h
    simp only [inlineS]
    exact .ifS (inlineE_rel B c) (inlineSs_rel B t h.1) (inlineSs_rel B e h.2)
  | .whileS c b, h => by
    simp only [plainS] at h
    simp only [inlineS]
    exact .whileS (inlineE_rel B c) (inlineSs_rel B b h)
  | .repeatS x e b, h => by
    simp only [plainS] at h
    simp only [inlineS]
    exact .repeatS x (inlineE_rel B e) (inlineSs_rel B b h)
  | .ret none, _ => by simp only [inlineS]; exact .retN
  | .ret (some e), _ => by simp only [inlineS]; exact .ret (inlineE_rel B e)
  | .brk, _ => by simp only [inlineS]; exact .brk
  | .funDef _ _ _, h => by simp [plainS] at h
  | .showS e, _ => by simp only [inlineS]; exact .showS (inlineE_rel B e)
  | .assertS e, _ => by simp only [inlineS]; exact .assertS (inlineE_rel B e)
  | .push x e, _ => by simp only [inlineS]; exact .push x (inlineE_rel B e)

theorem inlineSs_rel (B : Bodies) : ∀ ss, plainSs ss = true → RelSs (rule B) ss (inlineSs B ss)
  | [], _ => .nil
  | s :: ss, h => by
    simp only [plainSs, Bool.and_eq_true] at h
    simp only [inlineSs]
    exact .cons (inlineS_rel B s h.1) (inlineSs_rel B ss h.2)
end

theorem bodies_main : ∀ (ss : List Stmt) (B : Bodies), plainSs ss = true → bodies ss B = B
  | [], B, _ => rfl
  | s :: ss, B, h => by
    simp only [plainSs, Bool.and_eq_true] at h
    have ih := bodies_main ss B h.2
    cases s with
    | funDef _ _ _ => simp [plainS] at h
    | _ => simpa [bodies] using ih

theorem bodies_defs {main : List Stmt} (hm : plainSs main = true) :
    ∀ (defs : List Def) (B : Bodies) {f : Sym} {ps : List Sym} {e : Expr},
      bodies (program defs main) B f = some (ps, e) → B f = some (ps, e) ∨
        ∃ d ∈ defs, d.name = f ∧ d.names = ps ∧ d.body = [.ret (some e)] ∧ inlinable e = true
  | [], B, f, ps, e, h => by
    simp only [program, List.map_nil, List.nil_append, bodies_main main B hm] at h
    exact .inl h
  | d :: ds, B, f, ps, e, h => by
    have key : ∀ B', bodies (program (d :: ds) main) B = bodies (program ds main) B' →
        (B' f = some (ps, e) → B f = some (ps, e) ∨ (d.name = f ∧ d.names = ps ∧
          d.body = [.ret (some e)] ∧ inlinable e = true)) →
        B f = some (ps, e) ∨ ∃ d' ∈ d :: ds, d'.name = f ∧ d'.names = ps ∧
          d'.body = [.ret (some e)] ∧ inlinable e = true := by
      intro B' hB hk
      rw [hB] at h
      rcases bodies_defs hm ds B' h with h' | ⟨d', h1, h2⟩
      · rcases hk h' with h'' | h''
        · exact .inl h''
        · exact .inr ⟨d, by simp, h''⟩
      · exact .inr ⟨d', by simp [h1], h2⟩
    rcases d with ⟨name, params, body⟩
    by_cases hb : ∃ e', body = [.ret (some e')]
    · obtain ⟨e', rfl⟩ := hb
      refine key _ rfl ?_
      by_cases hi : inlinable e' = true
      · simp only [hi, if_true]
        by_cases hf : f = name
        · simp only [hf, if_true, Option.some.injEq, Prod.mk.injEq]
          rintro ⟨h1, h2⟩
          subst h2
          exact .inr ⟨trivial, h1, rfl, hi⟩
        · simp only [hf, if_false]
          exact .inl
      · simp only [hi]
        exact .inl
    · refine key B ?_ .inl
      simp only [program, List.map_cons, List.cons_append, Def.stmt]
      rw [bodies]
      intro f' ps' e' he
      simp only [Stmt.funDef.injEq] at he
      exact hb ⟨e', he.2.2⟩

/-- Errors the comparison leaves out: fuel and unbound names. -/
def skip (e : Err) : Prop := e = .fuel ∨ ∃ x, e = .unbound x

theorem rule_sound {P : Prims} {defs : List Def} {main : List Stmt} (ho : Orderly P defs main)
    (hc : ∀ d ∈ defs, d.closed) (F' : Sym → Option Fun) :
    RuleSound skip (table defs) F' (rule (bodies (program defs main) fun _ => none)) P := by
  rintro f as e ⟨ps, body, hB, hlen, hat, rfl⟩
  rcases bodies_defs ho.main defs _ hB with h | ⟨d, hd, rfl, hps, hbody, hinl⟩
  · cases h
  have hat' : as.all atom = true := by
    rw [List.all_eq_true] at hat ⊢
    intro a ha
    have := hat a ha
    cases a <;> simp_all [atomic, atom]
  refine ⟨hat', fun x _ => .inr ⟨x, rfl⟩, toFun d, table_mem ho.distinct hd, ho.own d hd, ?_, ?_⟩
  · rw [← hlen, ← hps]; rfl
  · intro n s vs hs hev hg
    cases n with
    | zero => exact absurd (.inl rfl) (hg .fuel rfl)
    | succ n =>
      have hvals := atomVals hat' hev
      have hinv : (plain P (n + 1)).invoke (.fn (toFun d)) vs s =
          invokeFun (plain P n) n (toFun d) vs s := rfl
      rw [hinv] at hg ⊢
      have hba := bind_agree (ps := ps) (m := fun _ => none) (e := s.env.pushFrame) hlen hvals
        (by simp [Env.pushFrame]) (by simp)
      have hfr := bindParams_frames ps vs s.env.pushFrame (by simp [Env.pushFrame])
      obtain ⟨r, h1, h2⟩ := subst_eval (P := P) (n := n + 1) (n' := n)
        (m := bindArgs ps as fun _ => none)
        (s := s.withEnv fun e => bindParams ps vs e.pushFrame) (t := over F' s) body hinl (by
          intro x hx
          have hxp : x ∈ ps := by
            rw [← hps]
            exact hc d hd body hbody x hx
          have := hba.2 x (.inl hxp)
          obtain ⟨a, ha⟩ := Option.isSome_iff_exists.1 this
          obtain ⟨v, hv1, hv2⟩ := hba.1 x a ha
          refine ⟨a, v, ha, ?_, hv2⟩
          simp only [State.withEnv, Env.lookup, hfr.1, hv1]
          simp [Env.pushFrame])
      rw [h2]
      have hparams : (toFun d).params = ps := hps
      have hbd : (toFun d).body = [.ret (some body)] := hbody
      unfold invokeFun inFrame
      rw [hparams, hbd]
      simp only [execs, exec, h1]
      cases r with
      | error e => exact ⟨rfl, rfl, by simp [Res.bind]⟩
      | ok v =>
        simp only [Res.bind, returned]
        have henv : ((s.withEnv fun e => bindParams ps vs e.pushFrame).withEnv (·.popFrame)) = s := by
          simp only [State.withEnv]
          have : (bindParams ps vs s.env.pushFrame).popFrame = s.env := by
            unfold Env.popFrame
            rw [hfr.1]
            simp only [Env.pushFrame]
            have e2 := hfr.2.1
            have e3 := hfr.2.2
            simp only [Env.pushFrame] at e2 e3
            rw [e2, e3]
          rw [this]
        rw [henv]
        exact same_mk hs

/-- Inlining in a program whose functions come first and read their parameters only. -/
theorem inline_run {P : Prims} {defs : List Def} {main : List Stmt} (ho : Orderly P defs main)
    (hc : ∀ d ∈ defs, d.closed) (n : Nat)
    (hf : ∀ e, (run P n (program defs main)).error = some e → ¬ skip e) :
    run P n (inlineProgram (program defs main)) = run P n (program defs main) := by
  have hsplit : ∀ (B : Bodies) (defs : List Def), inlineSs B (program defs main) =
      program (defs.map (mapBody (inlineSs B))) (inlineSs B main) := by
    intro B defs
    induction defs with
    | nil => rfl
    | cons d ds ih =>
      simp only [program, List.map_cons, List.cons_append, inlineSs] at ih ⊢
      rw [ih]
      rfl
  unfold inlineProgram
  rw [hsplit]
  exact run_same ho.distinct (fun d hd => inlineSs_rel _ _ (ho.flat d hd))
    (inlineSs_rel _ _ ho.main) (rule_sound ho hc _) n hf

end Verif.Lang.Inline
