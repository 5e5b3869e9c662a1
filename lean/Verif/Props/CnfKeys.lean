import Verif.Props.Cnf
import Mathlib.Tactic.Tauto

/-!
# C23: formulas over plain names

The clausal translation tells atoms apart by a printed key.  With names that avoid the characters
of the key's own syntax, different atoms have different keys, so that the equivalence of `C23` holds
for all valuations that make identity symmetric.
-/
namespace Verif.Props
open Verif.Proof

/-- Specification: a name without the characters that keys are built with. -/
def PlainName (s : List Char) : Prop :=
  s ≠ [] ∧ ∀ c ∈ s, c ≠ '(' ∧ c ≠ ')' ∧ c ≠ ',' ∧ c ≠ '=' ∧ c ≠ '?' ∧ c ≠ ':'

mutual
/-- Specification: terms built from constants, variables and functions with plain names (no groups,
and no bound variables, which would share their keys with free ones). -/
def PlainTerm : Term → Prop
  | .const s => PlainName s
  | .var s => PlainName s
  | .fn n args => PlainName n ∧ PlainTerms args
  | .group _ => False
  | .bound _ => False

/-- All of them. -/
def PlainTerms : List Term → Prop
  | [] => True
  | t :: ts => PlainTerm t ∧ PlainTerms ts
end

/-- Specification: formulas over such terms, with no worlds. -/
def PlainExpr : Expr → Prop
  | .pred n args w => PlainName n ∧ PlainTerms args ∧ w = none
  | .ident a b => PlainTerm a ∧ PlainTerm b
  | .atom _ => True
  | .and a b | .or a b | .implies a b | .iff a b => PlainExpr a ∧ PlainExpr b
  | .not a => PlainExpr a
  | .other _ => False

/-- Specification: the same atom, up to the order of the sides of an identity. -/
def SameAtom : Expr → Expr → Prop
  | .ident a b, .ident c d => (a = c ∧ b = d) ∨ (a = d ∧ b = c)
  | e, e' => e = e'

/-- A character of the key's syntax, or the end. -/
def Stops (r : List Char) : Prop :=
  ∀ c, r.head? = some c → c = '(' ∨ c = ')' ∨ c = ',' ∨ c = '=' ∨ c = '?' ∨ c = ':'

theorem plain_span : ∀ {s s' r r' : List Char},
    (∀ c ∈ s, c ≠ '(' ∧ c ≠ ')' ∧ c ≠ ',' ∧ c ≠ '=' ∧ c ≠ '?' ∧ c ≠ ':') →
    (∀ c ∈ s', c ≠ '(' ∧ c ≠ ')' ∧ c ≠ ',' ∧ c ≠ '=' ∧ c ≠ '?' ∧ c ≠ ':') → Stops r → Stops r' →
    s ++ r = s' ++ r' → s = s' ∧ r = r'
  | [], [], r, r', _, _, _, _, h => ⟨rfl, h⟩
  | [], c :: s', r, r', _, h2, hr, _, h => by
    exfalso
    have h1 := h2 c (by simp)
    simp only [List.nil_append, List.cons_append] at h
    have := hr c (by rw [h]; rfl)
    tauto
  | c :: s, [], r, r', h1, _, _, hr', h => by
    exfalso
    have h2 := h1 c (by simp)
    simp only [List.nil_append, List.cons_append] at h
    have := hr' c (by rw [← h]; rfl)
    tauto
  | c :: s, d :: s', r, r', h1, h2, hr, hr', h => by
    simp only [List.cons_append, List.cons.injEq] at h
    obtain ⟨rfl, hn⟩ := h
    have h := hn; clear hn
    obtain ⟨rfl, hn⟩ := plain_span (fun x hx => h1 x (by simp [hx])) (fun x hx => h2 x (by simp [hx]))
      hr hr' h
    clear h; have h := hn; clear hn
    exact ⟨rfl, h⟩

/-- What follows a term inside a key. -/
def After (r : List Char) : Prop :=
  ∀ c, r.head? = some c → c = ')' ∨ c = ',' ∨ c = '='

theorem After.stops {r : List Char} (h : After r) : Stops r := by
  intro c hc
  have := h c hc
  tauto

theorem stops_cons {c : Char} {r : List Char}
    (h : c = '(' ∨ c = ')' ∨ c = ',' ∨ c = '=' ∨ c = '?' ∨ c = ':') : Stops (c :: r) := by
  intro d hd
  simp only [List.head?_cons, Option.some.injEq] at hd
  rw [← hd]; exact h

theorem after_cons {c : Char} {r : List Char} (h : c = ')' ∨ c = ',' ∨ c = '=') : After (c :: r) := by
  intro d hd
  simp only [List.head?_cons, Option.some.injEq] at hd
  rw [← hd]; exact h

/-- The first character of a plain name differs from those of the key's syntax. -/
theorem plain_head {s r r' : List Char} {c : Char} (hs : PlainName s)
    (hc : c = '(' ∨ c = ')' ∨ c = ',' ∨ c = '=' ∨ c = '?' ∨ c = ':') (h : s ++ r = c :: r') : False := by
  cases s with
  | nil => exact hs.1 rfl
  | cons d s =>
    simp only [List.cons_append, List.cons.injEq] at h
    have := hs.2 d (by simp)
    rw [h.1] at this
    tauto

theorem joinComma_cons (x : List Char) (xs : List (List Char)) :
    joinComma (x :: xs) = x ++ (match xs with | [] => [] | _ => ',' :: joinComma xs) := by
  cases xs with
  | nil => simp [joinComma]
  | cons y r => simp [joinComma]

theorem termKey_ne {t : Term} (h : PlainTerm t) : ∃ c r, termKey t = c :: r ∧ c ≠ ')' ∧ c ≠ ',' := by
  have name : ∀ {s : List Char}, PlainName s → ∀ x, ∃ c r, s ++ x = c :: r ∧ c ≠ ')' ∧ c ≠ ',' := by
    intro s hs x
    cases s with
    | nil => exact absurd rfl hs.1
    | cons d s => exact ⟨d, s ++ x, rfl, (hs.2 d (by simp)).2.1, (hs.2 d (by simp)).2.2.1⟩
  cases t with
  | const s => simpa [termKey] using name (show PlainName s by simpa [PlainTerm] using h) []
  | var s => exact ⟨'?', s, by simp [termKey], by decide, by decide⟩
  | fn n args =>
    simp only [PlainTerm] at h
    simpa [termKey] using name h.1 ('(' :: (joinComma (termKeys args) ++ [')']))
  | group _ => simp [PlainTerm] at h
  | bound _ => simp [PlainTerm] at h

mutual
theorem termKey_inj : ∀ (a b : Term) (r r' : List Char), PlainTerm a → PlainTerm b → After r →
    After r' → termKey a ++ r = termKey b ++ r' → a = b ∧ r = r'
  | .const s, b, r, r', ha, hb, hr, hr', h => by
    have ha : PlainName s := by simpa [PlainTerm] using ha
    cases b with
    | const s' =>
      have hb : PlainName s' := by simpa [PlainTerm] using hb
      simp only [termKey] at h
      obtain ⟨rfl, hn⟩ := plain_span ha.2 hb.2 hr.stops hr'.stops h
      clear h; have h := hn; clear hn
      exact ⟨rfl, h⟩
    | var s' =>
      simp only [termKey, List.cons_append] at h
      exact (plain_head ha (by simp) h).elim
    | fn n args =>
      simp only [PlainTerm] at hb
      simp only [termKey, List.append_assoc, List.singleton_append] at h
      obtain ⟨_, hn⟩ := plain_span ha.2 hb.1.2 hr.stops (stops_cons (by simp)) h
      clear h; have h := hn; clear hn
      have := hr '(' (by rw [h]; rfl)
      simp at this
    | group _ => simp [PlainTerm] at hb
    | bound _ => simp [PlainTerm] at hb
  | .var s, b, r, r', ha, hb, hr, hr', h => by
    have ha : PlainName s := by simpa [PlainTerm] using ha
    cases b with
    | const s' =>
      have hb : PlainName s' := by simpa [PlainTerm] using hb
      simp only [termKey, List.cons_append] at h
      exact (plain_head hb (by simp) h.symm).elim
    | var s' =>
      have hb : PlainName s' := by simpa [PlainTerm] using hb
      simp only [termKey, List.cons_append, List.cons.injEq, true_and] at h
      obtain ⟨rfl, hn⟩ := plain_span ha.2 hb.2 hr.stops hr'.stops h
      clear h; have h := hn; clear hn
      exact ⟨rfl, h⟩
    | fn n args =>
      simp only [PlainTerm] at hb
      simp only [termKey, List.append_assoc, List.cons_append, List.nil_append] at h
      exact (plain_head hb.1 (by simp) h.symm).elim
    | group _ => simp [PlainTerm] at hb
    | bound _ => simp [PlainTerm] at hb
  | .fn n args, b, r, r', ha, hb, hr, hr', h => by
    simp only [PlainTerm] at ha
    cases b with
    | const s' =>
      have hb : PlainName s' := by simpa [PlainTerm] using hb
      simp only [termKey, List.append_assoc, List.singleton_append] at h
      obtain ⟨_, hn⟩ := plain_span ha.1.2 hb.2 (stops_cons (by simp)) hr'.stops h
      clear h; have h := hn; clear hn
      have := hr' '(' (by rw [← h]; rfl)
      simp at this
    | var s' =>
      simp only [termKey, List.append_assoc, List.cons_append, List.nil_append] at h
      exact (plain_head ha.1 (by simp) h).elim
    | fn n' args' =>
      simp only [PlainTerm] at hb
      simp only [termKey, List.append_assoc, List.singleton_append] at h
      obtain ⟨rfl, hn⟩ := plain_span ha.1.2 hb.1.2 (stops_cons (by simp)) (stops_cons (by simp)) h
      clear h; have h := hn; clear hn
      simp only [List.cons.injEq, true_and] at h
      obtain ⟨rfl, hn⟩ := termKeys_inj args args' r r' ha.2 hb.2 h
      clear h; have h := hn; clear hn
      exact ⟨rfl, h⟩
    | group _ => simp [PlainTerm] at hb
    | bound _ => simp [PlainTerm] at hb
  | .group _, _, _, _, ha, _, _, _, _ => by simp [PlainTerm] at ha
  | .bound _, _, _, _, ha, _, _, _, _ => by simp [PlainTerm] at ha

theorem termKeys_inj : ∀ (as bs : List Term) (r r' : List Char), PlainTerms as → PlainTerms bs →
    joinComma (termKeys as) ++ ')' :: r = joinComma (termKeys bs) ++ ')' :: r' → as = bs ∧ r = r'
  | [], [], r, r', _, _, h => by simpa [termKeys, joinComma] using h
  | [], b :: bs, r, r', _, hb, h => by
    exfalso
    simp only [PlainTerms] at hb
    obtain ⟨c, k, e, h1, _⟩ := termKey_ne hb.1
    simp only [termKeys, joinComma_cons, e] at h
    simp only [joinComma, List.nil_append, List.cons_append, List.cons.injEq] at h
    exact h1 h.1.symm
  | a :: as, [], r, r', ha, _, h => by
    exfalso
    simp only [PlainTerms] at ha
    obtain ⟨c, k, e, h1, _⟩ := termKey_ne ha.1
    simp only [termKeys, joinComma_cons, e] at h
    simp only [joinComma, List.nil_append, List.cons_append, List.cons.injEq] at h
    exact h1 h.1
  | a :: as, b :: bs, r, r', ha, hb, h => by
    simp only [PlainTerms] at ha hb
    simp only [termKeys, joinComma_cons, List.append_assoc] at h
    have af : ∀ (ts : List Term) (x : List Char),
        After ((match termKeys ts with | [] => [] | _ => ',' :: joinComma (termKeys ts)) ++ ')' :: x) := by
      intro ts x
      cases ts with
      | nil => simp only [termKeys, List.nil_append]; exact after_cons (by simp)
      | cons t ts => simp only [termKeys, List.cons_append]; exact after_cons (by simp)
    obtain ⟨rfl, hn⟩ := termKey_inj a b _ _ ha.1 hb.1 (af as r) (af bs r') h
    clear h; have h := hn; clear hn
    cases as with
    | nil =>
      cases bs with
      | nil => simpa [termKeys] using h
      | cons b bs => simp [termKeys] at h
    | cons a' as' =>
      cases bs with
      | nil => simp [termKeys] at h
      | cons b' bs' =>
        have h' : joinComma (termKeys (a' :: as')) ++ ')' :: r =
            joinComma (termKeys (b' :: bs')) ++ ')' :: r' := by
          simpa [termKeys] using h
        obtain ⟨e, hn⟩ := termKeys_inj (a' :: as') (b' :: bs') r r' ha.2 hb.2 h'
        clear h; have h := hn; clear hn
        exact ⟨by rw [e], h⟩
end

theorem ident_keys {a b c d : Term} (ha : PlainTerm a) (hb : PlainTerm b) (hc : PlainTerm c)
    (hd : PlainTerm d)
    (h : ['='] ++ termKey a ++ ['='] ++ termKey b = ['='] ++ termKey c ++ ['='] ++ termKey d) :
    a = c ∧ b = d := by
  simp only [List.append_assoc, List.singleton_append, List.cons_append, List.cons.injEq, true_and] at h
  obtain ⟨rfl, hn⟩ := termKey_inj a c _ _ ha hc (after_cons (by simp)) (after_cons (by simp)) h
  clear h; have h := hn; clear hn
  simp only [List.cons.injEq, true_and] at h
  have e : After [] := by intro c hc; simp at hc
  obtain ⟨rfl, _⟩ := termKey_inj b d [] [] hb hd e e (by simpa using h)
  exact ⟨rfl, rfl⟩

/-- **C23**: atoms over plain names get the same key only if they are the same atom, up to the order
of the sides of an identity. -/
theorem C23_keys_distinct (e e' : Expr) (k : List Char) (he : PlainExpr e) (he' : PlainExpr e')
    (h : atomKey e = some k) (h' : atomKey e' = some k) : SameAtom e e' := by
  have hatom : ∀ {n : List Char} {args : List Term} {x : List Char}, PlainName n →
      n ++ ['('] ++ joinComma (termKeys args) ++ [')'] = ['a', 't', 'o', 'm', ':'] ++ x → False := by
    intro n args x hn hx
    have hx : n ++ '(' :: (joinComma (termKeys args) ++ [')']) = ['a', 't', 'o', 'm'] ++ ':' :: x := by
      simpa using hx
    obtain ⟨_, hxn⟩ := plain_span hn.2 (by decide) (stops_cons (by simp)) (stops_cons (by simp)) hx
    clear hx; have hx := hxn; clear hxn
    simp at hx
  have hk := h
  rw [← h'] at h
  clear h'
  cases e with
  | pred n args w =>
    obtain ⟨h1, h2, rfl⟩ := he
    cases e' with
    | pred n' args' w' =>
      obtain ⟨h3, h4, rfl⟩ := he'
      simp only [atomKey, Option.some.injEq, List.append_assoc, List.singleton_append] at h
      obtain ⟨rfl, hn⟩ := plain_span h1.2 h3.2 (stops_cons (by simp)) (stops_cons (by simp)) h
      clear h; have h := hn; clear hn
      simp only [List.cons.injEq, true_and] at h
      obtain ⟨rfl, _⟩ := termKeys_inj args args' [] [] h2 h4 h
      rfl
    | ident a b =>
      exfalso
      simp only [atomKey] at h
      split at h <;> simp only [Option.some.injEq, List.append_assoc, List.cons_append, List.nil_append] at h <;>
        exact plain_head h1 (by simp) h
    | atom x =>
      simp only [atomKey, Option.some.injEq] at h
      exact (hatom h1 h).elim
    | _ => simp [atomKey] at h
  | ident a b =>
    cases e' with
    | pred n' args' w' =>
      exfalso
      obtain ⟨h3, h4, rfl⟩ := he'
      simp only [atomKey] at h
      split at h <;> simp only [Option.some.injEq, List.append_assoc, List.cons_append, List.nil_append] at h <;>
        exact plain_head h3 (by simp) h.symm
    | ident c d =>
      obtain ⟨h1, h2⟩ := he
      obtain ⟨h3, h4⟩ := he'
      simp only [atomKey] at h
      split at h <;> split at h <;> simp only [Option.some.injEq] at h
      · exact .inl (ident_keys h1 h2 h3 h4 h)
      · exact .inr (ident_keys h1 h2 h4 h3 h)
      · obtain ⟨e1, e2⟩ := ident_keys h2 h1 h3 h4 h
        exact .inr ⟨e2, e1⟩
      · obtain ⟨e1, e2⟩ := ident_keys h2 h1 h4 h3 h
        exact .inl ⟨e2, e1⟩
    | atom x =>
      simp only [atomKey] at h
      split at h <;> simp at h
    | _ =>
      simp only [atomKey] at h
      split at h <;> simp at h
  | atom x =>
    cases e' with
    | pred n' args' w' =>
      obtain ⟨h3, h4, rfl⟩ := he'
      simp only [atomKey, Option.some.injEq] at h
      exact (hatom h3 h.symm).elim
    | ident c d =>
      simp only [atomKey] at h
      split at h <;> simp at h
    | atom y =>
      simp only [atomKey, Option.some.injEq, List.append_cancel_left_eq] at h
      rw [h]; rfl
    | _ => simp [atomKey] at h
  | _ => simp [atomKey] at hk

/-- Specification: identity is symmetric under the valuation. -/
def Symmetric (v : Expr → Bool) : Prop := ∀ a b, v (.ident a b) = v (.ident b a)

open Classical in
/-- The valuation with the given values on plain atoms, made uniform over keys. -/
noncomputable def plainValuation (v : Expr → Bool) (e : Expr) : Bool :=
  match atomKey e with
  | none => false
  | some k => if h : ∃ e', PlainExpr e' ∧ atomKey e' = some k then v h.choose else false

theorem plainValuation_respects (v : Expr → Bool) : RespectsKeys (plainValuation v) := by
  intro a b k ha hb
  unfold plainValuation
  rw [ha, hb]

theorem plainValuation_atom {v : Expr → Bool} (hv : Symmetric v) {e : Expr} {k : List Char}
    (he : PlainExpr e) (hk : atomKey e = some k) : plainValuation v e = v e := by
  unfold plainValuation
  rw [hk]
  have hex : ∃ e', PlainExpr e' ∧ atomKey e' = some k := ⟨e, he, hk⟩
  simp only [dif_pos hex]
  have hs := C23_keys_distinct _ e k hex.choose_spec.1 he hex.choose_spec.2 hk
  generalize hex.choose = e' at hs
  cases e' with
  | ident a b =>
    cases e with
    | ident c d =>
      rcases hs with ⟨rfl, rfl⟩ | ⟨rfl, rfl⟩
      · rfl
      · exact hv _ _
    | _ => cases hs
  | _ => cases hs; rfl

theorem plainValuation_eval {v : Expr → Bool} (hv : Symmetric v) : ∀ {e : Expr}, PlainExpr e →
    e.eval (plainValuation v) = e.eval v := by
  intro e
  induction e with
  | pred n args w => intro h; exact plainValuation_atom hv h rfl
  | ident a b =>
    intro h
    have : ∃ k, atomKey (.ident a b) = some k := by
      simp only [atomKey]; split <;> exact ⟨_, rfl⟩
    obtain ⟨k, hk⟩ := this
    exact plainValuation_atom hv h hk
  | other => intro h; exact absurd h (by simp [PlainExpr])
  | atom n => intro h; exact plainValuation_atom hv h rfl
  | not p ih => intro h; rw [Expr.eval, Expr.eval, ih h]
  | and p q ihp ihq => intro h; rw [Expr.eval, Expr.eval, ihp h.1, ihq h.2]
  | or p q ihp ihq => intro h; rw [Expr.eval, Expr.eval, ihp h.1, ihq h.2]
  | implies p q ihp ihq => intro h; rw [Expr.eval, Expr.eval, ihp h.1, ihq h.2]
  | iff p q ihp ihq => intro h; rw [Expr.eval, Expr.eval, ihp h.1, ihq h.2]

theorem decoded_symmetric (s : Cnf) (τ : Nat → Bool) : Symmetric (decoded s τ) := by
  intro a b
  unfold decoded Cnf.atomValue
  rw [C23_identity_symmetric a b]

theorem respects_symmetric {v : Expr → Bool} (h : RespectsKeys v) : Symmetric v := by
  intro a b
  have : ∃ k, atomKey (.ident a b) = some k := by
    simp only [atomKey]; split <;> exact ⟨_, rfl⟩
  obtain ⟨k, hk⟩ := this
  exact h _ _ k hk (by rw [← C23_identity_symmetric a b]; exact hk)

/-- **C23** for predicates, functions, identities and letters over plain names: the clauses of the
premises and the negated goal are unsatisfiable exactly when the premises entail the goal under every
valuation of the atoms that makes identity symmetric. -/
theorem C23_plain (ps : List Expr) (goal : Expr) (hps : ∀ p ∈ ps, PlainExpr p) (hg : PlainExpr goal)
    (s s' : Cnf) (h : Cnf.fromPremises ps = some s) (h' : s.assertNeg goal = some s') :
    ¬ Satisfiable s'.clauses ↔
      ∀ v : Expr → Bool, Symmetric v → (∀ p ∈ ps, p.eval v = true) → goal.eval v = true := by
  rw [C23_refutation_iff_partial ps goal s s' h h']
  constructor
  · intro hall v hv hp
    have := hall (plainValuation v) (plainValuation_respects v)
      (fun p hm => by rw [plainValuation_eval hv (hps p hm)]; exact hp p hm)
    rwa [plainValuation_eval hv hg] at this
  · intro hall v hv hp
    exact hall v (respects_symmetric hv) hp

/-- `likes(mary, ?x)`, `mother(mary) = jane → likes(jane, mary)` and `jane = mother(mary)` entail
`likes(jane, mary)`. -/
example :
    let mary := Term.const ['m', 'a', 'r', 'y']
    let jane := Term.const ['j', 'a', 'n', 'e']
    let likes := fun a b => Expr.pred ['l', 'i', 'k', 'e', 's'] [a, b] none
    let mother := Term.fn ['m', 'o', 't', 'h', 'e', 'r'] [mary]
    let ps := [likes mary (.var ['x']), .implies (.ident mother jane) (likes jane mary), .ident jane mother]
    (∀ p ∈ ps, PlainExpr p) ∧ PlainExpr (likes jane mary) ∧
    ∃ s s', Cnf.fromPremises ps = some s ∧ s.assertNeg (likes jane mary) = some s' ∧
      ¬ Satisfiable s'.clauses := by
  refine ⟨?_, ?_, _, _, rfl, rfl, ?_⟩
  · simp [PlainExpr, PlainTerm, PlainTerms, PlainName]
  · simp [PlainExpr, PlainTerm, PlainTerms, PlainName]
  · apply C21_refutation_sound 3 _ []
    decide +kernel

end Verif.Props
