import Verif.Proof.UnifyLemmas
import Verif.Proof.UnifyExprSpec
/-!
# Lemmas about the unification of formulas
-/

namespace Verif.Proof

/-- Terms of a formula mapped. -/
def mapE (F : Term → Term) : QExpr → QExpr
  | .pred p as w => .pred p (as.map F) w
  | .ident a b => .ident (F a) (F b)
  | .atom p => .atom p
  | .bin op a b => .bin op (mapE F a) (mapE F b)
  | .un op a => .un op (mapE F a)
  | .quant q x b => .quant q x (mapE F b)

/-- Every term of the formula. -/
def AllE (P : Term → Prop) : QExpr → Prop
  | .pred _ as _ => ∀ a ∈ as, P a
  | .ident a b => P a ∧ P b
  | .atom _ => True
  | .bin _ a b => AllE P a ∧ AllE P b
  | .un _ a => AllE P a
  | .quant _ _ b => AllE P b

theorem mapE_comp {F G H : Term → Term} (h : ∀ u, H u = F (G u)) : ∀ e, mapE H e = mapE F (mapE G e)
  | .pred p as w => by simp [mapE, h]
  | .ident a b => by simp [mapE, h]
  | .atom p => rfl
  | .bin op a b => by simp [mapE, mapE_comp h a, mapE_comp h b]
  | .un op a => by simp [mapE, mapE_comp h a]
  | .quant q x b => by simp [mapE, mapE_comp h b]

theorem instExpr_eq (θ : List Char → Term) : ∀ e, Plain e → instExpr θ e = mapE (inst θ) e
  | .pred p as w, _ => by rw [instExpr, mapE, insts_eq]
  | .ident a b, _ => rfl
  | .atom p, _ => rfl
  | .bin op a b, h => by rw [instExpr, mapE, instExpr_eq θ a h.1, instExpr_eq θ b h.2]
  | .un op a, h => by rw [instExpr, mapE, instExpr_eq θ a h]
  | .quant q x b, h => h.elim

theorem Step.trans {V : List (List Char)} {s σ s1 σ1 s2 σ2 : Subst} (st : Step V s σ s1 σ1)
    (st2 : Step V s1 σ1 s2 σ2) : Step V s σ s2 σ2 := by
  obtain ⟨τ1, f1⟩ := st.factor
  obtain ⟨τ2, f2⟩ := st2.factor
  refine ⟨st2.inv, st2.names, ⟨fun u => τ2 (τ1 u), fun u => by rw [f2, f1]⟩, ?_⟩
  rcases st.less with ⟨rfl, rfl⟩ | h1
  · exact st2.less
  · rcases st2.less with ⟨rfl, rfl⟩ | h2
    · exact .inr h1
    · exact .inr (by omega)

/-- One equation after another. -/
theorem Good.seq {V : List (List Char)} {s σ s1 σ1 : Subst} {e1 e2 e : (List Char → Term) → Prop}
    {d2 d : Subst → Prop} {w1 w2 w : (List Char → Bool) → Prop} {r : Except UErr Subst}
    (st : Step V s σ s1 σ1) (hm : ∀ θ, Resp θ σ → e1 θ → Resp θ σ1)
    (hw : ∀ K, WKS K σ → w1 K → WKS K σ1) (h2 : Good V s1 σ1 e2 d2 w2 r)
    (he : ∀ θ, e θ → e1 θ ∧ e2 θ) (hd : ∀ s2 σ2, Step V s1 σ1 s2 σ2 → d2 σ2 → d σ2)
    (hwk : ∀ K, w K → w1 K ∧ w2 K) : Good V s σ e d w r := by
  cases r with
  | error x =>
    intro K θ a b c f
    exact h2 K θ (hw K a (hwk K b).1) (hwk K b).2 (hm θ c (he θ f).1) (he θ f).2
  | ok s2 =>
    obtain ⟨σ2, st2, hd2, hm2, hw2⟩ := h2
    exact ⟨σ2, st.trans st2, hd s2 σ2 st2 hd2, fun θ a b => hm2 θ (hm θ a (he θ b).1) (he θ b).2,
      fun K a b => hw2 K (hw K a (hwk K b).1) (hwk K b).2⟩

theorem stable {V : List (List Char)} {s1 σ1 s2 σ2 : Subst} (st : Step V s1 σ1 s2 σ2) {a b : QExpr}
    (h : mapE (res σ1) a = mapE (res σ1) b) : mapE (res σ2) a = mapE (res σ2) b := by
  obtain ⟨F, f⟩ := st.factor
  rw [mapE_comp f a, mapE_comp f b, h]

theorem stableT {V : List (List Char)} {s1 σ1 s2 σ2 : Subst} (st : Step V s1 σ1 s2 σ2) {a b : Term}
    (h : res σ1 a = res σ1 b) : res σ2 a = res σ2 b := by
  obtain ⟨F, f⟩ := st.factor
  rw [f a, f b, h]

/-- The claim about one call on formulas. -/
def ClaimE (V : List (List Char)) (id : Nat) (s σ : Subst) (a b : QExpr) : Prop :=
  ∃ r, (∃ n, ∀ m ≥ n, unifyExpr m id a b s = some (r.map fun s' => (s', id))) ∧
    Good V s σ (fun θ => mapE (inst θ) a = mapE (inst θ) b) (fun σ' => mapE (res σ') a = mapE (res σ') b)
      (fun K => WKE K a ∧ WKE K b) r

theorem ClaimE.clash {V : List (List Char)} {id : Nat} {s σ : Subst} {a b : QExpr} (e : UErr)
    (h : ∀ m, unifyExpr (m + 1) id a b s = some (.error e)) (hne : ∀ θ, mapE (inst θ) a ≠ mapE (inst θ) b) :
    ClaimE V id s σ a b := by
  refine ⟨.error e, ⟨1, fun m hm => ?_⟩, good_error e hne⟩
  obtain ⟨m, rfl⟩ : ∃ k, m = k + 1 := ⟨m - 1, by omega⟩
  exact h m

theorem unifyTerm_claim' {V : List (List Char)} {s σ : Subst} {t1 t2 : Term} (hi : Inv s σ)
    (hn : NamesIn V σ) (h1 : ∀ w, occurs w t1 = true → w ∈ V) (h2 : ∀ w, occurs w t2 = true → w ∈ V) :
    Claim V s σ t1 t2 :=
  unifyTerm_claim V _ _ s σ t1 t2 hi hn h1 h2 (Nat.le_refl _) (Nat.le_refl _)

theorem unifyExpr_claim (V : List (List Char)) (id : Nat) : ∀ (a b : QExpr) (s σ : Subst), Inv s σ →
    NamesIn V σ → AllE (fun t => ∀ w, occurs w t = true → w ∈ V) a →
    AllE (fun t => ∀ w, occurs w t = true → w ∈ V) b → Plain a → Plain b → ClaimE V id s σ a b := by
  intro a
  induction a with
  | pred p as w =>
    intro b s σ hi hn ha hb pa pb
    cases b with
    | pred q bs w' =>
      simp only [Plain] at pa pb
      subst pa; subst pb
      by_cases hpq : p = q
      · subst hpq
        by_cases hl : as.length = bs.length
        · obtain ⟨r, ⟨n, hu⟩, hg⟩ := unifyArgs_claim (V := V) (k := cnt V s + 1) (m := 0)
            (fun s σ t1 t2 a b c d _ => unifyTerm_claim' a b c d) as bs s σ hi hn ha hb hl (by omega)
            (.inl (by omega))
          refine ⟨r, ⟨n + 1, fun m hm => ?_⟩, ?_⟩
          · obtain ⟨m, rfl⟩ : ∃ k, m = k + 1 := ⟨m - 1, by omega⟩
            simp [unifyExpr, hl, worldsClash, hu m (by omega)]
          · refine hg.congr (fun θ _ => ?_) (fun s' σ' _ hd => ?_) (fun K _ h => h)
            · simp [mapE]
            · simp only [mapE, QExpr.pred.injEq, and_true, true_and]; exact hd
        · refine .clash .arityMismatch (fun m => by simp [unifyExpr, hl]) fun θ he => ?_
          simp only [mapE, QExpr.pred.injEq] at he
          exact hl (by simpa using congrArg List.length he.2.1)
      · refine .clash .symbolMismatch (fun m => by simp [unifyExpr, hpq]) fun θ he => ?_
        simp only [mapE, QExpr.pred.injEq] at he
        exact hpq he.1
    | ident c d => exact .clash .exprUnificationFailed (fun m => rfl) fun θ he => by cases he
    | atom c => exact .clash .exprUnificationFailed (fun m => rfl) fun θ he => by cases he
    | bin o c d => exact .clash .exprUnificationFailed (fun m => rfl) fun θ he => by cases he
    | un o c => exact .clash .exprUnificationFailed (fun m => rfl) fun θ he => by cases he
    | quant q x c => exact pb.elim
  | ident t1 t2 =>
    intro b s σ hi hn ha hb pa pb
    cases b with
    | ident u1 u2 =>
      obtain ⟨r, ⟨n, hu⟩, hg⟩ := unifyTerm_claim' (t1 := t1) (t2 := u1) hi hn ha.1 hb.1
      cases r with
      | error e =>
        refine ⟨.error e, ⟨n + 1, fun m hm => ?_⟩, ?_⟩
        · obtain ⟨m, rfl⟩ : ∃ k, m = k + 1 := ⟨m - 1, by omega⟩
          simp only [unifyExpr, hu m (by omega)]; rfl
        · intro K θ h1 h2 h3 h4
          simp only [mapE, QExpr.ident.injEq] at h4
          exact hg K θ h1 ⟨h2.1.1, h2.2.1⟩ h3 h4.1
      | ok s1 =>
        obtain ⟨σ1, st, hd, hm1, hw1⟩ := hg
        obtain ⟨r, ⟨n2, hu2⟩, hg2⟩ := unifyTerm_claim' (t1 := t2) (t2 := u2) st.inv st.names ha.2 hb.2
        refine ⟨r, ⟨max n n2 + 1, fun m hm => ?_⟩, ?_⟩
        · obtain ⟨m, rfl⟩ : ∃ k, m = k + 1 := ⟨m - 1, by omega⟩
          simp only [unifyExpr, hu m (by omega), hu2 m (by omega)]; rfl
        · refine hg2.seq st hm1 hw1 (fun θ he => ?_) (fun s2 σ2 st2 hd2 => ?_)
            (fun K h => ⟨⟨h.1.1, h.2.1⟩, ⟨h.1.2, h.2.2⟩⟩)
          · simpa only [mapE, QExpr.ident.injEq] using he
          · simp only [mapE, QExpr.ident.injEq]
            exact ⟨stableT st2 hd, hd2⟩
    | pred q bs w' => exact .clash .exprUnificationFailed (fun m => rfl) fun θ he => by cases he
    | atom c => exact .clash .exprUnificationFailed (fun m => rfl) fun θ he => by cases he
    | bin o c d => exact .clash .exprUnificationFailed (fun m => rfl) fun θ he => by cases he
    | un o c => exact .clash .exprUnificationFailed (fun m => rfl) fun θ he => by cases he
    | quant q x c => exact pb.elim
  | atom p =>
    intro b s σ hi hn ha hb pa pb
    cases b with
    | atom q =>
      by_cases h : p = q
      · subst h
        refine ⟨.ok s, ⟨1, fun m hm => ?_⟩, good_refl hi hn rfl⟩
        obtain ⟨m, rfl⟩ : ∃ k, m = k + 1 := ⟨m - 1, by omega⟩
        simp only [unifyExpr, if_true]; rfl
      · refine .clash .exprUnificationFailed (fun m => by simp [unifyExpr, h]) fun θ he => ?_
        simp only [mapE, QExpr.atom.injEq] at he
        exact h he
    | pred q bs w' => exact .clash .exprUnificationFailed (fun m => rfl) fun θ he => by cases he
    | ident c d => exact .clash .exprUnificationFailed (fun m => rfl) fun θ he => by cases he
    | bin o c d => exact .clash .exprUnificationFailed (fun m => rfl) fun θ he => by cases he
    | un o c => exact .clash .exprUnificationFailed (fun m => rfl) fun θ he => by cases he
    | quant q x c => exact pb.elim
  | bin op a1 a2 ih1 ih2 =>
    intro b s σ hi hn ha hb pa pb
    cases b with
    | bin op' b1 b2 =>
      by_cases ho : op = op'
      · subst ho
        obtain ⟨r, ⟨n, hu⟩, hg⟩ := ih1 b1 s σ hi hn ha.1 hb.1 pa.1 pb.1
        cases r with
        | error e =>
          refine ⟨.error e, ⟨n + 1, fun m hm => ?_⟩, ?_⟩
          · obtain ⟨m, rfl⟩ : ∃ k, m = k + 1 := ⟨m - 1, by omega⟩
            simp only [unifyExpr, if_true, hu m (by omega)]; rfl
          · intro K θ h1 h2 h3 h4
            simp only [mapE, QExpr.bin.injEq, true_and] at h4
            exact hg K θ h1 ⟨h2.1.1, h2.2.1⟩ h3 h4.1
        | ok s1 =>
          obtain ⟨σ1, st, hd, hm1, hw1⟩ := hg
          obtain ⟨r, ⟨n2, hu2⟩, hg2⟩ := ih2 b2 s1 σ1 st.inv st.names ha.2 hb.2 pa.2 pb.2
          refine ⟨r, ⟨max n n2 + 1, fun m hm => ?_⟩, ?_⟩
          · obtain ⟨m, rfl⟩ : ∃ k, m = k + 1 := ⟨m - 1, by omega⟩
            simp only [unifyExpr, if_true, hu m (by omega), Except.map, hu2 m (by omega)]
          · refine hg2.seq st hm1 hw1 (fun θ he => ?_) (fun s2 σ2 st2 hd2 => ?_)
              (fun K h => ⟨⟨h.1.1, h.2.1⟩, ⟨h.1.2, h.2.2⟩⟩)
            · simpa only [mapE, QExpr.bin.injEq, true_and] using he
            · simp only [mapE, QExpr.bin.injEq, true_and]
              exact ⟨stable st2 hd, hd2⟩
      · refine .clash .exprUnificationFailed (fun m => by simp [unifyExpr, ho]) fun θ he => ?_
        simp only [mapE, QExpr.bin.injEq] at he
        exact ho he.1
    | pred q bs w' => exact .clash .exprUnificationFailed (fun m => rfl) fun θ he => by cases he
    | ident c d => exact .clash .exprUnificationFailed (fun m => rfl) fun θ he => by cases he
    | atom c => exact .clash .exprUnificationFailed (fun m => rfl) fun θ he => by cases he
    | un o c => exact .clash .exprUnificationFailed (fun m => rfl) fun θ he => by cases he
    | quant q x c => exact pb.elim
  | un op a1 ih =>
    intro b s σ hi hn ha hb pa pb
    cases b with
    | un op' b1 =>
      by_cases ho : op = op'
      · subst ho
        obtain ⟨r, ⟨n, hu⟩, hg⟩ := ih b1 s σ hi hn ha hb pa pb
        refine ⟨r, ⟨n + 1, fun m hm => ?_⟩, ?_⟩
        · obtain ⟨m, rfl⟩ : ∃ k, m = k + 1 := ⟨m - 1, by omega⟩
          simp only [unifyExpr, if_true, hu m (by omega)]
        · refine hg.congr (fun θ _ => ?_) (fun s' σ' _ hd => ?_) (fun K _ h => h)
          · simp only [mapE, QExpr.un.injEq, true_and]
          · simp only [mapE, QExpr.un.injEq, true_and]; exact hd
      · refine .clash .exprUnificationFailed (fun m => by simp [unifyExpr, ho]) fun θ he => ?_
        simp only [mapE, QExpr.un.injEq] at he
        exact ho he.1
    | pred q bs w' => exact .clash .exprUnificationFailed (fun m => rfl) fun θ he => by cases he
    | ident c d => exact .clash .exprUnificationFailed (fun m => rfl) fun θ he => by cases he
    | atom c => exact .clash .exprUnificationFailed (fun m => rfl) fun θ he => by cases he
    | bin o c d => exact .clash .exprUnificationFailed (fun m => rfl) fun θ he => by cases he
    | quant q x c => exact pb.elim
  | quant q x c _ => intro b s σ _ _ _ _ pa _; exact pa.elim

theorem namesE_finite : ∀ e : QExpr, ∃ V : List (List Char),
    AllE (fun t => ∀ w, occurs w t = true → w ∈ V) e := by
  have mono : ∀ (V W : List (List Char)) (e : QExpr), (∀ w ∈ V, w ∈ W) →
      AllE (fun t => ∀ w, occurs w t = true → w ∈ V) e → AllE (fun t => ∀ w, occurs w t = true → w ∈ W) e := by
    intro V W e h
    induction e with
    | pred p as w => intro h1 a ha x hx; exact h x (h1 a ha x hx)
    | ident a b => intro h1; exact ⟨fun x hx => h x (h1.1 x hx), fun x hx => h x (h1.2 x hx)⟩
    | atom p => intro _; trivial
    | bin op a b iha ihb => intro h1; exact ⟨iha h1.1, ihb h1.2⟩
    | un op a ih => exact ih
    | quant q x b ih => exact ih
  have two : ∀ a b : QExpr, (∃ V : List (List Char), AllE (fun t => ∀ w, occurs w t = true → w ∈ V) a) →
      (∃ V : List (List Char), AllE (fun t => ∀ w, occurs w t = true → w ∈ V) b) →
      ∃ V : List (List Char), AllE (fun t => ∀ w, occurs w t = true → w ∈ V) a ∧
        AllE (fun t => ∀ w, occurs w t = true → w ∈ V) b := by
    rintro a b ⟨V, hV⟩ ⟨W, hW⟩
    exact ⟨V ++ W, mono V _ a (fun w hw => List.mem_append_left _ hw) hV,
      mono W _ b (fun w hw => List.mem_append_right _ hw) hW⟩
  intro e
  induction e with
  | pred p as w =>
    obtain ⟨V, hV⟩ := names_finite (.group as)
    refine ⟨V, fun a ha x hx => hV x ?_⟩
    rw [occurs, occursAny_iff]; exact ⟨a, ha, hx⟩
  | ident a b =>
    obtain ⟨V, hV⟩ := names_finite a
    obtain ⟨W, hW⟩ := names_finite b
    exact ⟨V ++ W, fun w hw => List.mem_append_left _ (hV w hw), fun w hw => List.mem_append_right _ (hW w hw)⟩
  | atom p => exact ⟨[], trivial⟩
  | bin op a b iha ihb => exact two a b iha ihb
  | un op a ih => exact ih
  | quant q x b ih => exact ih

theorem unifyExprs_claim (id : Nat) (a b : QExpr) (pa : Plain a) (pb : Plain b) :
    ∃ V, ClaimE V id .empty .empty a b := by
  obtain ⟨V, hV⟩ := namesE_finite (.bin .and a b)
  exact ⟨V, unifyExpr_claim V id a b .empty .empty Inv.empty
    (fun v t h => by simp [Subst.empty] at h) hV.1 hV.2 pa pb⟩

theorem unifyExpr_succ : ∀ (n id : Nat) (a b : QExpr) (s : Subst) (r : Except UErr (Subst × Nat)),
    Plain a → Plain b → unifyExpr n id a b s = some r → unifyExpr (n + 1) id a b s = some r := by
  intro n
  induction n with
  | zero => intro id a b s r _ _ h; simp [unifyExpr] at h
  | succ n ih =>
    intro id a b s r pa pb h
    cases a <;> cases b <;> try exact h
    · rename_i p as w q bs w'
      rw [unifyExpr] at h ⊢
      split at h
      · rename_i h1; rw [if_pos h1]; exact h
      · rename_i h1
        rw [if_neg h1]
        split at h
        · rename_i h2; rw [if_pos h2]; exact h
        · rename_i h2
          rw [if_neg h2]
          split at h
          · rename_i h3; rw [if_pos h3]; exact h
          · rename_i h3
            rw [if_neg h3]
            cases hu : unifyArgs (unifyTerm n) as bs s with
            | none => rw [hu] at h; cases h
            | some x =>
              rw [hu] at h
              rw [unifyArgs_mono (fun a b s r e => unifyTerm_succ n a b s r e) _ _ _ _ hu]
              exact h
    · rename_i a b c d
      rw [unifyExpr] at h ⊢
      cases hu : unifyTerm n a c s with
      | none => simp only [hu] at h; cases h
      | some x =>
        simp only [hu] at h
        simp only [unifyTerm_succ n a c s x hu]
        cases x with
        | error e => exact h
        | ok s1 =>
          dsimp only at h ⊢
          cases hu2 : unifyTerm n b d s1 with
          | none => rw [hu2] at h; cases h
          | some y =>
            rw [hu2] at h
            rw [unifyTerm_succ n b d s1 y hu2]
            exact h
    · rename_i op a b op' c d
      rw [unifyExpr] at h ⊢
      split at h
      · rename_i h1
        rw [if_pos h1]
        cases hu : unifyExpr n id a c s with
        | none => simp only [hu] at h; cases h
        | some x =>
          simp only [hu] at h
          simp only [ih id a c s x pa.1 pb.1 hu]
          cases x with
          | error e => exact h
          | ok y =>
            obtain ⟨s1, id1⟩ := y
            dsimp only at h ⊢
            exact ih id1 b d s1 r pa.2 pb.2 h
      · rename_i h1; rw [if_neg h1]; exact h
    · rename_i op a op' b
      rw [unifyExpr] at h ⊢
      split at h
      · rename_i h1
        rw [if_pos h1]
        exact ih id a b s r pa pb h
      · rename_i h1; rw [if_neg h1]; exact h
    · exact pa.elim

theorem unifyExpr_mono {n m id : Nat} {a b : QExpr} {s : Subst} {r : Except UErr (Subst × Nat)}
    (pa : Plain a) (pb : Plain b) (h : unifyExpr n id a b s = some r) (hm : n ≤ m) :
    unifyExpr m id a b s = some r := by
  induction hm with
  | refl => exact h
  | step _ ih => exact unifyExpr_succ _ id a b s r pa pb ih

theorem applyExpr_plain {s σ : Subst} (hi : Inv s σ) : ∀ e, Plain e →
    ∃ n, ∀ m ≥ n, applyExpr m s e = some (mapE (res σ) e)
  | .pred p as w, _ => by
    obtain ⟨n, hn⟩ := Ev.all (s := s) (as := as) (forall₂_map_right fun a _ => hi.ends a)
    refine ⟨n, fun m hm => ?_⟩
    rw [applyExpr, mapAll_mono (fun a r h => applyTerm_mono h hm) hn]; rfl
  | .ident a b, _ => by
    obtain ⟨n1, h1⟩ := hi.ends a
    obtain ⟨n2, h2⟩ := hi.ends b
    refine ⟨max n1 n2, fun m hm => ?_⟩
    rw [applyExpr, applyTerm_mono h1 (by omega), applyTerm_mono h2 (by omega)]; rfl
  | .atom p, _ => ⟨0, fun _ _ => rfl⟩
  | .bin op a b, h => by
    obtain ⟨n1, h1⟩ := applyExpr_plain hi a h.1
    obtain ⟨n2, h2⟩ := applyExpr_plain hi b h.2
    refine ⟨max n1 n2, fun m hm => ?_⟩
    rw [applyExpr, h1 m (by omega), h2 m (by omega)]; rfl
  | .un op a, h => by
    obtain ⟨n1, h1⟩ := applyExpr_plain hi a h
    exact ⟨n1, fun m hm => by rw [applyExpr, h1 m hm]; rfl⟩
  | .quant q x b, h => h.elim

end Verif.Proof
