import Verif.Kernel.GuardRun
/-! # Every recorded call is on a part of the caller's structural argument -/
namespace Verif.Core

/-- The guard `G` covers the tagged fixpoint `f` in the environment. -/
structure Cover (D : Decls) (ρ : ValEnv) (f : String) (w : Val) (b : Term) (G : GCtx) : Prop where
  param : ∃ x p inner, structParam D b = some (x, G.type, p, inner) ∧ G.positions = [(f, p)]
  notShadowed : f ∉ G.shadowed
  live : G.live = true → look G.param ρ = some w ∧ G.param ≠ f
  smaller : ∀ y ∈ G.smaller, ∃ u, look y ρ = some u ∧ PartOf u w ∧ isData D u = true
  isCon : ofType D G.type w = true

mutual
/-- A value in which no unfinished recursive call hides. -/
inductive Clean (D : Decls) : Val → Prop
  | con {c as} : isDataAll D as = true → Clean D (.con c as)
  | inert : Clean D .inert
  | clo {ρ x a b} : (∀ y v, look y ρ = some v → BindOk D ρ (fun G _ => guarded D G 0 [] (.lam x a b) = true) y v) →
      allGuarded D (.lam x a b) = true → Clean D (.clo ρ x a b)
  | recur {ρ f b as} : (∀ y v, look y ρ = some v → BindOk D ρ (fun G _ => guarded D G 0 [] (.fix f b) = true) y v) →
      allGuarded D (.fix f b) = true → (∀ a ∈ as, Clean D a) →
      (∀ s, structParam D b = some s → as.length ≤ s.2.2.1) → Clean D (.recur none ρ f b as)
/-- A binding that is clean, or a fixpoint being run that a guard covers. -/
inductive BindOk (D : Decls) : ValEnv → (GCtx → Val → Prop) → String → Val → Prop
  | clean {ρ K x v} : Clean D v → BindOk D ρ K x v
  | tagged {ρ K w ρ' f b} (G : GCtx) :
      (∀ y v, look y ρ' = some v → BindOk D ρ' (fun G _ => guarded D G 0 [] (.fix f b) = true) y v) →
      allGuarded D (.fix f b) = true → Cover D ρ f w b G → K G w → BindOk D ρ K f (.recur (some w) ρ' f b [])
end

/-- Every binding is as it should be, or is excepted. -/
def EnvE (D : Decls) (E : String → Val → Prop) (ρ : ValEnv) (K : GCtx → Val → Prop) : Prop :=
  ∀ y v, look y ρ = some v → BindOk D ρ K y v ∨ E y v

def EnvOk (D : Decls) (ρ : ValEnv) (K : GCtx → Val → Prop) : Prop :=
  ∀ y v, look y ρ = some v → BindOk D ρ K y v

theorem EnvOk.mono {D ρ} {K K' : GCtx → Val → Prop} (h : EnvOk D ρ K)
    (hk : ∀ f w b G, Cover D ρ f w b G → K G w → K' G w) : EnvOk D ρ K' := by
  intro y v hy
  cases h y v hy with
  | clean hc => exact .clean hc
  | tagged G hd hg hc k => exact .tagged G hd hg hc (hk _ _ _ _ hc k)

theorem lookup_single (f x : String) (p : Nat) (h : x ≠ f) : ([(f, p)] : List (String × Nat)).lookup x = none := by
  have : (x == f) = false := by simpa using h
  simp [List.lookup, this]

theorem Cover.enter {D ρ f w b G} (h : Cover D ρ f w b G) (x : String) (v : Val) (hx : x ≠ f) :
    Cover D ((x, v) :: ρ) f w b (G.enter x) := by
  obtain ⟨n, p, inner, hs, hp⟩ := h.param
  refine ⟨⟨n, p, inner, hs, hp⟩, ?_, ?_, ?_, h.isCon⟩
  · simp only [GCtx.enter, hp, lookup_single f x p hx]
    simpa using h.notShadowed
  · intro hl
    simp only [GCtx.enter] at hl ⊢
    by_cases e : x = G.param
    · simp [e] at hl
    · have e' : (x == G.param) = false := by simpa using e
      rw [e'] at hl
      have := h.live (by simpa using hl)
      refine ⟨?_, this.2⟩
      simp only [look]
      rw [if_neg (fun q => e q.symm)]
      exact this.1
  · intro y hy
    simp only [GCtx.enter, List.mem_filter] at hy
    obtain ⟨u, hu, hp', hd⟩ := h.smaller y hy.1
    refine ⟨u, ?_, hp', hd⟩
    simp only [look]
    rw [if_neg (by simpa using hy.2)]
    exact hu

theorem Cover.mark {D ρ f w b G} (h : Cover D ρ f w b G) (x : String) (v : Val) (hx : x ≠ f)
    (hv : PartOf v w) (hd : isData D v = true) : Cover D ((x, v) :: ρ) f w b (G.mark x) := by
  obtain ⟨n, p, inner, hs, hp⟩ := h.param
  refine ⟨⟨n, p, inner, hs, hp⟩, ?_, ?_, ?_, h.isCon⟩
  · simp only [GCtx.mark, hp, lookup_single f x p hx]
    simpa using h.notShadowed
  · intro hl
    simp only [GCtx.mark] at hl ⊢
    by_cases e : x = G.param
    · simp [e] at hl
    · have e' : (x == G.param) = false := by simpa using e
      rw [e'] at hl
      have := h.live (by simpa using hl)
      refine ⟨?_, this.2⟩
      simp only [look]
      rw [if_neg (fun q => e q.symm)]
      exact this.1
  · intro y hy
    simp only [GCtx.mark, List.mem_cons] at hy
    by_cases e : y = x
    · refine ⟨v, ?_, hv, hd⟩
      simp [look, e]
    · obtain ⟨u, hu, hp', hd'⟩ := h.smaller y (hy.resolve_left e)
      refine ⟨u, ?_, hp', hd'⟩
      simp only [look]
      rw [if_neg e]
      exact hu

theorem EnvE.extend {D E ρ} {K K' : GCtx → Val → Prop} (h : EnvE D E ρ K) (x : String) (v : Val) (hv : Clean D v)
    (hk : ∀ G w, K G w → K' (G.enter x) w ∨ (PartOf v w ∧ isData D v = true ∧ K' (G.mark x) w)) :
    EnvE D E ((x, v) :: ρ) K' := by
  intro y u hy
  simp only [look] at hy
  by_cases e : y = x
  · rw [if_pos e] at hy
    cases hy
    exact .inl (.clean hv)
  · rw [if_neg e] at hy
    rcases h y u hy with hb | he
    · refine .inl ?_
      cases hb with
      | clean hc => exact .clean hc
      | tagged G hd hg hc k =>
        rcases hk _ _ k with k' | ⟨h1, h2, k'⟩
        · exact .tagged _ hd hg (hc.enter x v (fun q => e q.symm)) k'
        · exact .tagged _ hd hg (hc.mark x v (fun q => e q.symm) h1 h2) k'
    · exact .inr he

theorem EnvOk.extend {D ρ} {K K' : GCtx → Val → Prop} (h : EnvOk D ρ K) (x : String) (v : Val) (hv : Clean D v)
    (hk : ∀ G w, K G w → K' (G.enter x) w ∨ (PartOf v w ∧ isData D v = true ∧ K' (G.mark x) w)) :
    EnvOk D ((x, v) :: ρ) K' := by
  intro y u hy
  have h' : EnvE D (fun _ _ => False) ρ K := fun y v q => .inl (h y v q)
  rcases h'.extend x v hv hk y u hy with a | a
  · exact a
  · exact a.elim

theorem isDataAll_mem {D as} (h : isDataAll D as = true) : ∀ a ∈ as, isData D a = true := by
  induction as with
  | nil => simp
  | cons b bs ih =>
    simp only [isDataAll, Bool.and_eq_true] at h
    intro a ha
    rcases List.mem_cons.1 ha with rfl | ha
    · exact h.1
    · exact ih h.2 a ha

theorem isDataAll_append {D as v} (h : isDataAll D as = true) (hv : isData D v = true) :
    isDataAll D (as ++ [v]) = true := by
  induction as with
  | nil => simp [isDataAll, hv]
  | cons b bs ih =>
    simp only [isDataAll, Bool.and_eq_true, List.cons_append] at h ⊢
    exact ⟨h.1, ih h.2⟩

theorem clean_of_data {D v} (h : isData D v = true) : Clean D v := by
  cases v with
  | con c as =>
    simp only [isData, Bool.and_eq_true] at h
    exact .con h.2
  | inert => exact .inert
  | clo => simp [isData] at h
  | recur => simp [isData] at h

theorem callVal_data {D n u v} (h : isData D u = true) : callVal D n u v = none := by
  cases n with
  | zero => rfl
  | succ n =>
    cases u with
    | con c as =>
      simp only [isData, Bool.and_eq_true, beq_iff_eq] at h
      simp [callVal, h.1]
    | inert => rfl
    | clo => simp [isData] at h
    | recur => simp [isData] at h

theorem run_head {D} (t : Term) : ∀ {n ρ y u v l}, headVar t = some y → look y ρ = some u → isData D u = true →
    run D n ρ t = some (v, l) → v = u := by
  induction t using Term.rec (motive_2 := fun _ => True) (motive_3 := fun _ => True) (motive_4 := fun _ => True) with
  | var x =>
    intro n ρ y u v l hh hl _ hr
    cases n with
    | zero => simp [run] at hr
    | succ n =>
      simp only [headVar, Option.some.injEq] at hh
      subst hh
      simp only [run, hl, Option.map_some, Option.some.injEq, Prod.mk.injEq] at hr
      exact hr.1.symm
  | app f a ihf _ =>
    intro n ρ y u v l hh hl hd hr
    cases n with
    | zero => simp [run] at hr
    | succ n =>
      simp only [headVar] at hh
      simp only [run, Option.bind_eq_some_iff, Option.map_eq_some_iff] at hr
      obtain ⟨r, hr1, s, _, q, hq, _⟩ := hr
      have := ihf hh hl hd (v := r.1) (l := r.2) hr1
      rw [this, callVal_data hd] at hq
      cases hq
  | _ => first | trivial | (intro n ρ y u v l hh; simp [headVar] at hh)

def CallsOk (l : Calls) : Prop := ∀ q ∈ l, PartOf q.1 q.2

theorem CallsOk.nil : CallsOk [] := by intro q h; cases h
theorem CallsOk.append {a b : Calls} (ha : CallsOk a) (hb : CallsOk b) : CallsOk (a ++ b) := by
  intro q h
  rcases List.mem_append.1 h with h | h
  · exact ha q h
  · exact hb q h

/-- A value, when its pending arguments are `args`. -/
def Res (D : Decls) (ρ : ValEnv) (args : List Term) (v : Val) : Prop :=
  Clean D v ∨ ∃ w ρ' f b as x ty p inner s y u, v = .recur (some w) ρ' f b as ∧
    EnvOk D ρ' (fun G _ => guarded D G 0 [] (.fix f b) = true) ∧ allGuarded D (.fix f b) = true ∧
    (∀ a ∈ as, Clean D a) ∧ structParam D b = some (x, ty, p, inner) ∧ as.length ≤ p ∧
    args[p - as.length]? = some s ∧ headVar s = some y ∧ look y ρ = some u ∧ PartOf u w ∧ isData D u = true

theorem Res.clean {D ρ v} (h : Res D ρ [] v) : Clean D v := by
  rcases h with h | ⟨w, ρ', f, b, as, x, ty, p, inner, s, y, u, h⟩
  · exact h
  · simp at h

theorem structParam_spec {D b x ty p inner} (h : structParam D b = some (x, ty, p, inner)) :
    (∃ a, (telescope b)[p]? = some (x, a)) ∧ inner = peel (p + 1) b := by
  unfold structParam at h
  split at h
  · cases h
  · rename_i q _
    split at h
    · cases h
    · rename_i e he
      simp only [Option.map_eq_some_iff, Prod.mk.injEq] at h
      obtain ⟨ty', _, h1, _, h3, h4⟩ := h
      subst h3
      exact ⟨⟨e.2, by rw [he, ← h1]⟩, h4.symm⟩

theorem bindParams_spec {D E} : ∀ {vs : List Val} {ρ b e t}, bindParams ρ b vs = some (e, t) → (∀ a ∈ vs, Clean D a) →
    EnvE D E ρ (fun G _ => guarded D G 0 [] b = true) → allGuarded D b = true →
    EnvE D E e (fun G _ => guarded D G 0 [] t = true) ∧ allGuarded D t = true ∧ t = peel vs.length b ∧
      (∀ us v x a, vs = us ++ [v] → (telescope b)[us.length]? = some (x, a) → look x e = some v) := by
  intro vs
  induction vs with
  | nil =>
    intro ρ b e t h _ he hg
    simp only [bindParams, Option.some.injEq, Prod.mk.injEq] at h
    obtain ⟨rfl, rfl⟩ := h
    refine ⟨he, hg, rfl, ?_⟩
    intro us v x a h
    simp at h
  | cons v vs ih =>
    intro ρ b e t h hc he hg
    cases b with
    | lam x a b =>
      simp only [bindParams] at h
      have hg' : allGuarded D b = true := by
        simp only [allGuarded, Bool.and_eq_true] at hg
        exact hg.2
      have he' : EnvE D E ((x, v) :: ρ) (fun G _ => guarded D G 0 [] b = true) := by
        refine he.extend x v (hc v (by simp)) ?_
        intro G w k
        simp only [guarded, Bool.and_eq_true] at k
        exact .inl k.2
      obtain ⟨h1, h2, h3, h4⟩ := ih h (fun a ha => hc a (by simp [ha])) he' hg'
      refine ⟨h1, h2, by simp [peel, h3], ?_⟩
      intro us u z c hus hz
      cases us with
      | nil =>
        simp only [List.nil_append, List.cons.injEq] at hus
        obtain ⟨rfl, rfl⟩ := hus
        simp only [bindParams, Option.some.injEq, Prod.mk.injEq] at h
        obtain ⟨rfl, rfl⟩ := h
        simp only [telescope, List.length_nil, List.getElem?_cons_zero, Option.some.injEq, Prod.mk.injEq] at hz
        simp [look, hz.1]
      | cons u' us =>
        simp only [List.cons_append, List.cons.injEq] at hus
        simp only [telescope, List.length_cons, List.getElem?_cons_succ] at hz
        exact h4 us u z c hus.2 hz
    | _ => simp [bindParams] at h

theorem enter_ok {D ρ f b x ty p inner as v e t}
    (hd : EnvOk D ρ (fun G _ => guarded D G 0 [] (.fix f b) = true)) (hg : allGuarded D (.fix f b) = true)
    (hs : structParam D b = some (x, ty, p, inner)) (has : ∀ a ∈ as, Clean D a) (hlen : as.length = p)
    (hty : ofType D ty v = true) (hv : isData D v = true)
    (hb : bindParams ((f, .recur (some v) ρ f b []) :: ρ) b (as ++ [v]) = some (e, t)) :
    EnvOk D e (fun G _ => guarded D G 0 [] t = true) ∧ allGuarded D t = true := by
  simp only [allGuarded, Bool.and_eq_true] at hg
  have hE : EnvE D (fun y u => y = f ∧ u = .recur (some v) ρ f b []) ((f, .recur (some v) ρ f b []) :: ρ)
      (fun G _ => guarded D G 0 [] b = true) := by
    intro y u hy
    simp only [look] at hy
    by_cases q : y = f
    · rw [if_pos q] at hy
      exact .inr ⟨q, (Option.some.inj hy).symm⟩
    · rw [if_neg q] at hy
      refine .inl ?_
      cases hd y u hy with
      | clean hc => exact .clean hc
      | tagged G hd' hg' hc k =>
        simp only [guarded] at k
        exact .tagged _ hd' hg' (hc.enter f _ (fun r => q r.symm)) k
  have hall : ∀ a ∈ as ++ [v], Clean D a := by
    intro a ha
    rcases List.mem_append.1 ha with ha | ha
    · exact has a ha
    · rw [List.mem_singleton.1 ha]
      exact clean_of_data hv
  obtain ⟨h1, h2, h3, h4⟩ := bindParams_spec hb hall hE hg.2
  obtain ⟨⟨a, hx⟩, hin⟩ := structParam_spec hs
  have hlx : look x e = some v := h4 as v x a rfl (by rw [hlen]; exact hx)
  have ht : t = inner := by rw [h3, hin]; simp [hlen]
  refine ⟨?_, h2⟩
  intro y u hy
  rcases h1 y u hy with k | ⟨rfl, rfl⟩
  · exact k
  · have hct := hg.1
    simp only [checkTermination, hs] at hct
    refine .tagged (GCtx.start [(y, p)] x ty) hd (by simp [allGuarded, hg.2, checkTermination, hs]; exact hct) ?_ (by rw [ht]; exact hct)
    refine ⟨⟨x, p, inner, hs, rfl⟩, by simp [GCtx.start], ?_, by simp [GCtx.start], hty⟩
    intro _
    refine ⟨hlx, ?_⟩
    intro q
    simp only [GCtx.start] at q
    rw [q, hy] at hlx
    cases hlx

theorem guarded_notLam {D G n args} {t : Term} (h : ∀ x a b, t ≠ .lam x a b) :
    guarded D G n args t = guarded D G 0 args t := by
  cases t with
  | lam x a b => exact absurd rfl (h x a b)
  | _ => simp [guarded]

def RunGood (D : Decls) (n : Nat) : Prop :=
  ∀ ρ t args v l, run D n ρ t = some (v, l) → EnvOk D ρ (fun G _ => guarded D G 0 args t = true) →
    allGuarded D t = true → CallsOk l ∧ Res D ρ args v
def CallGood (D : Decls) (n : Nat) : Prop :=
  ∀ f v r l, callVal D n f v = some (r, l) → Clean D f → Clean D v → CallsOk l ∧ Clean D r

theorem fold_clean {D n} (hc : CallGood D n) : ∀ (as : List Val) (s r : Val × Calls),
    as.foldlM (fun s a => (callVal D n s.1 a).map fun q => (q.1, s.2 ++ q.2)) s = some r →
    Clean D s.1 → CallsOk s.2 → isDataAll D as = true → CallsOk r.2 ∧ Clean D r.1 := by
  intro as
  induction as with
  | nil =>
    intro s r h hs hl _
    simp only [List.foldlM_nil] at h
    cases h
    exact ⟨hl, hs⟩
  | cons a as ih =>
    intro s r h hs hl hd
    simp only [isDataAll, Bool.and_eq_true] at hd
    simp only [List.foldlM_cons, bind, Option.bind_eq_some_iff, Option.map_eq_some_iff] at h
    obtain ⟨_, ⟨q, hq, rfl⟩, h⟩ := h
    obtain ⟨h1, h2⟩ := hc _ _ _ _ hq hs (clean_of_data hd.1)
    exact ih _ _ h h2 (hl.append h1) hd.2

theorem case_ok {D n2} (hc : CallGood D n2) (hlow : ∀ k < n2, RunGood D k) : ∀ (as : List Val) (n1 : Nat) (ρ : ValEnv)
    (t : Term) (q r : Val × Calls) (l0 : Calls), RunGood D n1 → n1 ≤ n2 →
    run D n1 ρ t = some q →
    as.foldlM (fun s a => (callVal D n2 s.1 a).map fun q => (q.1, s.2 ++ q.2)) (q.1, l0 ++ q.2) = some r →
    EnvOk D ρ (fun G w => ∃ m, guarded D G m [] t = true ∧ (m = 0 ∨ (m = as.length ∧ ∀ a ∈ as, PartOf a w))) →
    allGuarded D t = true → isDataAll D as = true → CallsOk l0 → CallsOk r.2 ∧ Clean D r.1 := by
  intro as
  induction as with
  | nil =>
    intro n1 ρ t q r l0 hr _ hq hf he hg _ hl
    simp only [List.foldlM_nil] at hf
    cases hf
    obtain ⟨h1, h2⟩ := hr ρ t [] q.1 q.2 hq (he.mono (by
      intro f w b G _ k
      obtain ⟨m, k, e⟩ := k
      rcases e with rfl | ⟨rfl, _⟩ <;> exact k)) hg
    exact ⟨hl.append h1, h2.clean⟩
  | cons a as ih =>
    intro n1 ρ t q r l0 hr hle hq hf he hg hd hl
    by_cases hlam : ∃ x A b, t = .lam x A b
    · obtain ⟨x, A, b, rfl⟩ := hlam
      cases n1 with
      | zero => simp [run] at hq
      | succ n1 =>
        simp only [run, Option.some.injEq] at hq
        subst hq
        simp only [List.foldlM_cons, bind, Option.bind_eq_some_iff, Option.map_eq_some_iff] at hf
        obtain ⟨_, ⟨q, hq, rfl⟩, hf⟩ := hf
        cases n2 with
        | zero => simp [callVal] at hq
        | succ n2 =>
          simp only [callVal] at hq
          simp only [isDataAll, Bool.and_eq_true] at hd
          simp only [allGuarded, Bool.and_eq_true] at hg
          refine ih n2 ((x, a) :: ρ) b q r (l0 ++ []) (hlow n2 (by omega)) (by omega) hq hf ?_ hg.2 hd.2 (by simpa using hl)
          refine he.extend x a (clean_of_data hd.1) ?_
          rintro G w ⟨m, k, e⟩
          rcases e with rfl | ⟨rfl, hp⟩
          · simp only [guarded, Bool.and_eq_true] at k
            exact .inl ⟨0, k.2, .inl rfl⟩
          · simp only [guarded, List.length_cons] at k
            exact .inr ⟨hp a (by simp), hd.1, as.length, k, .inr ⟨rfl, fun c hc => hp c (by simp [hc])⟩⟩
    · have hn : ∀ x A b, t ≠ .lam x A b := fun x A b e => hlam ⟨x, A, b, e⟩
      obtain ⟨h1, h2⟩ := hr ρ t [] q.1 q.2 hq (he.mono (by
        intro f w b G _ k
        obtain ⟨m, k, _⟩ := k
        rw [guarded_notLam hn] at k
        exact k)) hg
      exact fold_clean hc _ _ _ hf h2.clean (hl.append h1) hd

theorem position_getElem {α : Type} {p : α → Bool} : ∀ {l : List α} {i : Nat}, position p l = some i →
    ∃ e, l[i]? = some e ∧ l.find? p = some e := by
  intro l
  induction l with
  | nil => intro i h; cases h
  | cons a l ih =>
    intro i h
    simp only [position] at h
    by_cases q : p a = true
    · rw [if_pos q] at h
      cases h
      exact ⟨a, rfl, by simp [List.find?, q]⟩
    · rw [if_neg q] at h
      simp only [Option.map_eq_some_iff] at h
      obtain ⟨j, hj, rfl⟩ := h
      obtain ⟨e, h1, h2⟩ := ih hj
      exact ⟨e, by simpa using h1, by simp [List.find?, q, h2]⟩

theorem guardedCases_get {D G} : ∀ {cs : List Term} {ns : List Nat} {i n : Nat} {t : Term}, guardedCases D G ns cs = true →
    ns[i]? = some n → cs[i]? = some t → guarded D G n [] t = true := by
  intro cs
  induction cs with
  | nil => intro ns i n t _ _ h; simp at h
  | cons c cs ih =>
    intro ns i n t h hn ht
    cases ns with
    | nil => simp at hn
    | cons m ns =>
      simp only [guardedCases, Bool.and_eq_true] at h
      cases i with
      | zero =>
        simp only [List.getElem?_cons_zero, Option.some.injEq] at hn ht
        subst hn ht
        exact h.1
      | succ i =>
        simp only [List.getElem?_cons_succ] at hn ht
        exact ih h.2 hn ht

theorem guardedAll_get {D G} : ∀ {cs : List Term} {i : Nat} {t : Term}, guardedAll D G cs = true → cs[i]? = some t →
    guarded D G 0 [] t = true := by
  intro cs
  induction cs with
  | nil => intro i t _ h; simp at h
  | cons c cs ih =>
    intro i t h ht
    simp only [guardedAll, Bool.and_eq_true] at h
    cases i with
    | zero =>
      simp only [List.getElem?_cons_zero, Option.some.injEq] at ht
      subst ht
      exact h.1
    | succ i =>
      simp only [List.getElem?_cons_succ] at ht
      exact ih h.2 ht

theorem allGuardedL_get {D} : ∀ {cs : List Term} {i : Nat} {t : Term}, allGuardedL D cs = true → cs[i]? = some t →
    allGuarded D t = true := by
  intro cs
  induction cs with
  | nil => intro i t _ h; simp at h
  | cons c cs ih =>
    intro i t h ht
    simp only [allGuardedL, Bool.and_eq_true] at h
    cases i with
    | zero =>
      simp only [List.getElem?_cons_zero, Option.some.injEq] at ht
      subst ht
      exact h.1
    | succ i =>
      simp only [List.getElem?_cons_succ] at ht
      exact ih h.2 ht

/-- The rule for a fixpoint that is called, from outside or by itself. -/
theorem recur_ok {D n p ρ f b as v r l} (hlow : RunGood D n)
    (h : callVal D (n + 1) (.recur p ρ f b as) v = some (r, l))
    (hd : EnvOk D ρ (fun G _ => guarded D G 0 [] (.fix f b) = true)) (hg : allGuarded D (.fix f b) = true)
    (has : ∀ a ∈ as, Clean D a) (hlen : ∀ s, structParam D b = some s → as.length ≤ s.2.2.1) :
    ∃ s, structParam D b = some s ∧ ((as.length < s.2.2.1 ∧ r = .recur p ρ f b (as ++ [v]) ∧ l = []) ∨
      (as.length = s.2.2.1 ∧ Clean D r ∧ ∃ l', CallsOk l' ∧ l = record v p ++ l')) := by
  simp only [callVal, Option.bind_eq_some_iff] at h
  obtain ⟨⟨x, ty, k, inner⟩, hs, h⟩ := h
  refine ⟨_, hs, ?_⟩
  have hl := hlen _ hs
  simp only at hl h ⊢
  by_cases c : as.length < k
  · rw [if_pos c] at h
    simp only [Option.some.injEq, Prod.mk.injEq] at h
    exact .inl ⟨c, h.1.symm, h.2.symm⟩
  · rw [if_neg c] at h
    split at h
    · rename_i hty
      simp only [Bool.and_eq_true] at hty
      simp only [Option.bind_eq_some_iff, Option.map_eq_some_iff, Prod.mk.injEq] at h
      obtain ⟨⟨e, t⟩, hb, q, hq, h1, h2⟩ := h
      obtain ⟨he, hgt⟩ := enter_ok hd hg hs has (by omega) hty.1 hty.2 hb
      obtain ⟨c1, c2⟩ := hlow e t [] q.1 q.2 hq he hgt
      refine .inr ⟨by omega, ?_, q.2, c1, h2.symm⟩
      rw [← h1]
      exact c2.clean
    · cases h

theorem call_good {D n} (hlow : RunGood D n) : CallGood D (n + 1) := by
  intro f v r l h hf hv
  cases hf with
  | inert => simp [callVal] at h
  | @con c as hd =>
    simp only [callVal] at h
    split at h
    · split at h
      · rename_i hk
        simp only [Option.some.injEq, Prod.mk.injEq] at h
        obtain ⟨rfl, rfl⟩ := h
        exact ⟨CallsOk.nil, .con (isDataAll_append hd hk.2)⟩
      · cases h
    · cases h
  | @clo ρ x a b he hg =>
    simp only [callVal] at h
    simp only [allGuarded, Bool.and_eq_true] at hg
    have he' : EnvOk D ρ (fun G _ => guarded D G 0 [] (.lam x a b) = true) := he
    obtain ⟨h1, h2⟩ := hlow _ b [] r l h (he'.extend x v hv (by
      intro G w k
      simp only [guarded, Bool.and_eq_true] at k
      exact .inl k.2)) hg.2
    exact ⟨h1, h2.clean⟩
  | @recur ρ f b as he hg has hlen =>
    obtain ⟨s, hs, h | h⟩ := recur_ok hlow h he hg has hlen
    · obtain ⟨h1, rfl, rfl⟩ := h
      refine ⟨CallsOk.nil, .recur he hg ?_ ?_⟩
      · intro a ha
        rcases List.mem_append.1 ha with ha | ha
        · exact has a ha
        · rw [List.mem_singleton.1 ha]
          exact hv
      · intro s' hs'
        rw [hs] at hs'
        cases hs'
        simp only [List.length_append, List.length_singleton]
        omega
    · obtain ⟨_, h2, l', h3, rfl⟩ := h
      exact ⟨by simpa [record] using h3, h2⟩

theorem run_good {D : Decls} (hdrop : ∀ c, dropped D c = 0) (n : Nat)
    (hlow : ∀ k < n + 1, RunGood D k) (hcall : ∀ k < n + 1, CallGood D k) : RunGood D (n + 1) := by
  intro ρ t args v l h he hg
  cases t with
  | var x =>
    simp only [run, Option.map_eq_some_iff, Prod.mk.injEq] at h
    obtain ⟨v', hv, rfl, rfl⟩ := h
    refine ⟨CallsOk.nil, ?_⟩
    cases he x v' hv with
    | clean hc => exact .inl hc
    | @tagged _ _ w ρ' f b G hd hgf hc k =>
      obtain ⟨z, p, inner, hs, hp⟩ := hc.param
      have hm : G.member x = some p := by
        have hns : G.shadowed.contains x = false := by simpa using hc.notShadowed
        simp only [GCtx.member, hns, hp]
        simp [List.lookup]
      simp only [guarded, hm] at k
      split at k
      · rename_i s hsa
        simp only [GCtx.argSmaller] at k
        split at k
        · rename_i y hy
          obtain ⟨u, hu, hpart, hdat⟩ := hc.smaller y (by simpa using k)
          exact .inr ⟨w, ρ', x, b, [], z, G.type, p, inner, s, y, u, rfl, hd, hgf, by simp, hs, by simp, by simpa using hsa, hy, hu, hpart, hdat⟩
        · cases k
      · cases k
  | glob c =>
    simp only [run] at h
    split at h <;> (simp only [Option.some.injEq, Prod.mk.injEq] at h; obtain ⟨rfl, rfl⟩ := h)
    · exact ⟨CallsOk.nil, .inl (.con (by simp [isDataAll]))⟩
    · exact ⟨CallsOk.nil, .inl .inert⟩
  | lam x a b =>
    simp only [run, Option.some.injEq, Prod.mk.injEq] at h
    obtain ⟨rfl, rfl⟩ := h
    exact ⟨CallsOk.nil, .inl (.clo (he.mono (by intro f w b G _ k; simpa [guarded] using k)) hg)⟩
  | fix f b =>
    simp only [run, Option.some.injEq, Prod.mk.injEq] at h
    obtain ⟨rfl, rfl⟩ := h
    exact ⟨CallsOk.nil, .inl (.recur (he.mono (by intro f w b G _ k; simpa [guarded] using k)) hg (by simp) (by simp))⟩
  | letE x ty w b =>
    simp only [run, Option.bind_eq_some_iff, Option.map_eq_some_iff, Prod.mk.injEq] at h
    obtain ⟨r, hr, q, hq, rfl, rfl⟩ := h
    simp only [allGuarded, Bool.and_eq_true] at hg
    obtain ⟨h1, h2⟩ := hlow n (by omega) ρ w [] r.1 r.2 hr (he.mono (by
      intro f w b G _ k
      simp only [guarded, Bool.and_eq_true] at k
      exact k.1.2)) hg.1.2
    obtain ⟨h3, h4⟩ := hlow n (by omega) _ b [] q.1 q.2 hq (he.extend x r.1 h2.clean (by
      intro G w k
      simp only [guarded, Bool.and_eq_true] at k
      exact .inl k.2)) hg.2
    exact ⟨h1.append h3, .inl h4.clean⟩
  | app f a =>
    simp only [run, Option.bind_eq_some_iff, Option.map_eq_some_iff, Prod.mk.injEq] at h
    obtain ⟨r, hr, s, hs, q, hq, rfl, rfl⟩ := h
    simp only [allGuarded, Bool.and_eq_true] at hg
    obtain ⟨h1, h2⟩ := hlow n (by omega) ρ f (a :: args) r.1 r.2 hr (he.mono (by
      intro f w b G _ k
      simp only [guarded, Bool.and_eq_true] at k
      exact k.1)) hg.1
    obtain ⟨h3, h4⟩ := hlow n (by omega) ρ a [] s.1 s.2 hs (he.mono (by
      intro f w b G _ k
      simp only [guarded, Bool.and_eq_true] at k
      exact k.2)) hg.2
    have ha := h4.clean
    rcases h2 with h2 | ⟨w, ρ', g, b, as, x, ty, p, inner, sa, y, u, hv, hd, hgf, has, hst, hle, harg, hy, hu, hpart, hdat⟩
    · obtain ⟨h5, h6⟩ := hcall n (by omega) _ _ _ _ hq h2 ha
      exact ⟨(h1.append h3).append h5, .inl h6⟩
    · rw [hv] at hq
      cases n with
      | zero => simp [callVal] at hq
      | succ n =>
        obtain ⟨s', hs', hh⟩ := recur_ok (hlow n (by omega)) hq hd hgf has (by
          intro s' hs'
          rw [hst] at hs'
          cases hs'
          exact hle)
        rw [hst] at hs'
        cases hs'
        simp only at hh
        rcases hh with ⟨hlt, hr', hl'⟩ | ⟨heq, hcl, l', hl', hlog⟩
        · rw [hr', hl']
          refine ⟨(h1.append h3).append CallsOk.nil, .inr ⟨w, ρ', g, b, as ++ [s.1], x, ty, p, inner, sa, y, u, rfl, hd, hgf, ?_, hst, ?_, ?_, hy, hu, hpart, hdat⟩⟩
          · intro c hc
            rcases List.mem_append.1 hc with hc | hc
            · exact has c hc
            · rw [List.mem_singleton.1 hc]
              exact ha
          · simp only [List.length_append, List.length_singleton]
            omega
          · have e : p - as.length = (p - (as ++ [s.1]).length) + 1 := by
              simp only [List.length_append, List.length_singleton]
              omega
            rw [e, List.getElem?_cons_succ] at harg
            exact harg
        · have e : p - as.length = 0 := by omega
          rw [e] at harg
          simp only [List.getElem?_cons_zero, Option.some.injEq] at harg
          subst harg
          have hsu : s.1 = u := run_head a hy hu hdat (l := s.2) hs
          refine ⟨(h1.append h3).append ?_, .inl hcl⟩
          rw [hlog]
          refine CallsOk.append ?_ hl'
          intro c hc
          simp only [record, List.mem_singleton] at hc
          subst hc
          rw [hsu]
          exact hpart
  | mtch d m cs =>
    simp only [run, Option.bind_eq_some_iff] at h
    obtain ⟨r, hr, h⟩ := h
    simp only [allGuarded, Bool.and_eq_true] at hg
    obtain ⟨h1, h2⟩ := hlow n (by omega) ρ d [] r.1 r.2 hr (he.mono (by
      intro f w b G hc k
      simp only [guarded, Bool.and_eq_true] at k
      by_cases hp : G.isParam d = true
      · cases d with
        | var z =>
          simp only [GCtx.isParam, Bool.and_eq_true, beq_iff_eq] at hp
          obtain ⟨_, p, _, _, hpos⟩ := hc.param
          have hne := (hc.live hp.1).2
          have : G.member z = none := by
            simp only [GCtx.member, hpos, lookup_single f z p (by rw [hp.2]; exact hne)]
            split <;> rfl
          simp [guarded, this]
        | _ => simp [GCtx.isParam] at hp
      · rw [if_neg hp] at k
        simp only [Bool.and_eq_true] at k
        exact k.2.1)) hg.1.1
    have hcl := h2.clean
    obtain ⟨rv, rl⟩ := r
    simp only at hcl h h1 hr
    cases rv with
    | con c as =>
      simp only at h
      split at h
      · rename_i har
        simp only [Option.bind_eq_some_iff] at h
        obtain ⟨t, ⟨i, hi, ht⟩, q, hq, hf⟩ := h
        cases hcl with
        | con hdat =>
        rw [hdrop c, List.drop_zero] at hf
        have := case_ok (hcall n (by omega)) (fun k hk => hlow k (by omega)) as n ρ t q (v, l) rl (hlow n (by omega))
          (Nat.le_refl _) hq hf (he.mono (by
            intro f w b G hc k
            simp only [guarded, Bool.and_eq_true] at k
            by_cases hp : G.isParam d = true
            · rw [if_pos hp] at k
              cases d with
              | var z =>
                simp only [GCtx.isParam, Bool.and_eq_true, beq_iff_eq] at hp
                obtain ⟨hlk, _⟩ := hc.live hp.1
                have hw : w = .con c as := by
                  cases n with
                  | zero => simp [run] at hr
                  | succ n =>
                    simp only [run, hp.2, hlk, Option.map_some, Option.some.injEq, Prod.mk.injEq] at hr
                    exact hr.1
                have hcon := hc.isCon
                simp only [hw, ofType, Bool.and_eq_true, beq_iff_eq] at hcon
                simp only [ctorIndex, hcon.1, Option.bind_some] at hi
                obtain ⟨e, he1, he2⟩ := position_getElem hi
                have hlen : countPi e.2 = as.length := by
                  simp only [arity, hcon.1, Option.bind_some, he2, Option.map_some, Option.some.injEq] at har
                  exact har
                refine ⟨as.length, guardedCases_get k.2 ?_ ht, .inr ⟨rfl, ?_⟩⟩
                · rw [List.getElem?_map, he1, Option.map_some, hlen]
                · intro a ha
                  exact ⟨c, as, hw, ha⟩
              | _ => simp [GCtx.isParam] at hp
            · rw [if_neg hp] at k
              simp only [Bool.and_eq_true] at k
              exact ⟨0, guardedAll_get k.2.2 ht, .inl rfl⟩)) (allGuardedL_get hg.2 ht) hdat h1
        exact ⟨this.1, .inl this.2⟩
      · cases h
    | _ => simp at h
  | _ =>
    simp only [run, Option.some.injEq, Prod.mk.injEq] at h
    obtain ⟨rfl, rfl⟩ := h
    exact ⟨CallsOk.nil, .inl .inert⟩

theorem all_good {D : Decls} (hdrop : ∀ c, dropped D c = 0) (n : Nat) :
    (∀ k ≤ n, RunGood D k) ∧ (∀ k ≤ n, CallGood D k) := by
  induction n with
  | zero =>
    constructor
    · intro k hk ρ t args v l h
      obtain rfl : k = 0 := by omega
      simp [run] at h
    · intro k hk f v r l h
      obtain rfl : k = 0 := by omega
      simp [callVal] at h
  | succ n ih =>
    constructor
    · intro k hk
      rcases Nat.lt_or_ge k (n + 1) with h | h
      · exact ih.1 k (by omega)
      · obtain rfl : k = n + 1 := by omega
        exact run_good hdrop n (fun k hk => ih.1 k (by omega)) (fun k hk => ih.2 k (by omega))
    · intro k hk
      rcases Nat.lt_or_ge k (n + 1) with h | h
      · exact ih.2 k (by omega)
      · obtain rfl : k = n + 1 := by omega
        exact call_good (ih.1 n (by omega))

theorem run_calls {D : Decls} (hdrop : ∀ c, dropped D c = 0) {n t v l} (hg : allGuarded D t = true)
    (h : run D n [] t = some (v, l)) : ∀ q ∈ l, PartOf q.1 q.2 :=
  ((all_good hdrop n).1 n (Nat.le_refl _) [] t [] v l h (by intro y v h; simp [look] at h) hg).1

end Verif.Core
