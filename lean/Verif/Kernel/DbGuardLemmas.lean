import Verif.Kernel.DbGuard
/-! # The two guards agree -/
namespace Verif.Core

mutual
/-- Every match has at most `m` cases. -/
def CasesFit (m : Nat) : Term → Prop
  | .app f a => CasesFit m f ∧ CasesFit m a
  | .mtch d r cs => CasesFit m d ∧ CasesFit m r ∧ cs.length ≤ m ∧ CasesFitL m cs
  | .lam _ a b => CasesFit m a ∧ CasesFit m b
  | .pi _ a b => CasesFit m a ∧ CasesFit m b
  | .fix _ b => CasesFit m b
  | .mfix ds _ => CasesFitD m ds
  | .letE _ t v b => CasesFit m t ∧ CasesFit m v ∧ CasesFit m b
  | .var _ => True
  | .sort _ => True
  | .glob _ => True
  | .const _ _ => True
  | .lit _ => True
  | .hole => True
def CasesFitL (m : Nat) : List Term → Prop
  | [] => True
  | c :: cs => CasesFit m c ∧ CasesFitL m cs
def CasesFitD (m : Nat) : List (String × Term) → Prop
  | [] => True
  | (_, b) :: ds => CasesFit m b ∧ CasesFitD m ds
end

theorem levelOf_succ {d k : Nat} : levelOf (d + 1) (k + 1) = levelOf d k := by
  unfold levelOf
  by_cases h : k < d
  · rw [if_pos h, if_pos (by omega)]
    congr 1
    omega
  · rw [if_neg h, if_neg (by omega)]

theorem levelOf_zero {d : Nat} : levelOf (d + 1) 0 = some d := by
  simp [levelOf]

/-- The two contexts say the same about every name in scope. -/
structure Agree (G : GCtx) (H : LCtx) (Γ : List String) : Prop where
  type : G.type = H.type
  member : ∀ x k, place x Γ = some k → G.member x = H.member Γ.length k
  smaller : ∀ x k, place x Γ = some k → G.smaller.contains x = ((levelOf Γ.length k).map H.smaller.contains).getD false
  param : ∀ x k, place x Γ = some k → (G.live && x == G.param) = (levelOf Γ.length k == some H.level)
  posBound : ∀ l, Γ.length ≤ l → H.positions.lookup l = none
  smallBound : ∀ l ∈ H.smaller, l < Γ.length
  levelBound : H.level < Γ.length

theorem enter_member_self (G : GCtx) (x : String) : (G.enter x).member x = none := by
  simp only [GCtx.member, GCtx.enter]
  by_cases h : (G.positions.lookup x).isSome
  · simp [h]
  · have : G.positions.lookup x = none := Option.not_isSome_iff_eq_none.1 h
    simp [this]

theorem enter_member_ne (G : GCtx) {x y : String} (h : y ≠ x) : (G.enter x).member y = G.member y := by
  simp only [GCtx.member, GCtx.enter]
  by_cases hs : (G.positions.lookup x).isSome
  · simp [hs, h]
  · simp [hs]

theorem mark_member_self (G : GCtx) (x : String) : (G.mark x).member x = none := enter_member_self G x
theorem mark_member_ne (G : GCtx) {x y : String} (h : y ≠ x) : (G.mark x).member y = G.member y := enter_member_ne G h

theorem Agree.enter {G H Γ} (h : Agree G H Γ) (x : String) : Agree (G.enter x) H (x :: Γ) := by
  refine ⟨h.type, ?_, ?_, ?_, ?_, ?_, ?_⟩
  · intro y k hy
    simp only [place] at hy
    by_cases e : x = y
    · simp only [e, if_true, Option.some.injEq] at hy
      subst hy e
      rw [enter_member_self]
      simp only [LCtx.member, List.length_cons, levelOf_zero, Option.bind_some]
      exact (h.posBound _ (Nat.le_refl _)).symm
    · simp only [e, if_false, Option.map_eq_some_iff] at hy
      obtain ⟨j, hj, rfl⟩ := hy
      rw [enter_member_ne G (Ne.symm e), h.member y j hj]
      simp only [LCtx.member, List.length_cons, levelOf_succ]
  · intro y k hy
    simp only [place] at hy
    by_cases e : x = y
    · simp only [e, if_true, Option.some.injEq] at hy
      subst hy e
      have h1 : (G.enter x).smaller.contains x = false := by simp [GCtx.enter]
      have h2 : H.smaller.contains Γ.length = false := by
        simp only [List.contains_eq_mem, decide_eq_false_iff_not]
        intro q
        exact Nat.lt_irrefl _ (h.smallBound _ q)
      rw [h1]
      simp only [List.length_cons, levelOf_zero, Option.map_some, Option.getD_some, h2]
    · simp only [e, if_false, Option.map_eq_some_iff] at hy
      obtain ⟨j, hj, rfl⟩ := hy
      simp only [List.length_cons, levelOf_succ]
      rw [← h.smaller y j hj]
      have : y ≠ x := Ne.symm e
      simp [GCtx.enter, List.contains_eq_mem, this]
  · intro y k hy
    simp only [place] at hy
    by_cases e : x = y
    · simp only [e, if_true, Option.some.injEq] at hy
      subst hy e
      have : Γ.length ≠ H.level := Nat.ne_of_gt h.levelBound
      simp only [List.length_cons, levelOf_zero]
      have h2 : (some Γ.length == some H.level) = false := by simp [this]
      rw [h2]
      by_cases q : x = G.param
      · simp [GCtx.enter, q]
      · have : (x == G.param) = false := by simp [q]
        simp [GCtx.enter, this]
    · simp only [e, if_false, Option.map_eq_some_iff] at hy
      obtain ⟨j, hj, rfl⟩ := hy
      simp only [List.length_cons, levelOf_succ]
      rw [← h.param y j hj]
      by_cases q : x = G.param
      · have : y ≠ G.param := by rw [← q]; exact Ne.symm e
        simp [GCtx.enter, q, this]
      · simp [GCtx.enter, q]
  · intro l hl
    exact h.posBound l (by simp only [List.length_cons] at hl; omega)
  · intro l hl
    have := h.smallBound l hl
    simp only [List.length_cons]
    omega
  · have := h.levelBound
    simp only [List.length_cons]
    omega

theorem Agree.mark {G H Γ} (h : Agree G H Γ) (x : String) :
    Agree (G.mark x) { H with smaller := Γ.length :: H.smaller } (x :: Γ) := by
  have he := h.enter x
  refine ⟨he.type, he.member, ?_, he.param, he.posBound, ?_, he.levelBound⟩
  · intro y k hy
    have hs := he.smaller y k hy
    simp only [place] at hy
    by_cases e : x = y
    · simp only [e, if_true, Option.some.injEq] at hy
      subst hy e
      simp [GCtx.mark, List.length_cons, levelOf_zero]
    · simp only [e, if_false, Option.map_eq_some_iff] at hy
      obtain ⟨j, hj, rfl⟩ := hy
      simp only [List.length_cons, levelOf_succ] at hs ⊢
      have hne : y ≠ x := Ne.symm e
      have h1 : (G.mark x).smaller.contains y = (G.enter x).smaller.contains y := by
        simp [GCtx.mark, GCtx.enter, List.contains_eq_mem, hne]
      rw [h1, hs]
      cases hl : levelOf Γ.length j with
      | none => rfl
      | some l =>
        have : l ≠ Γ.length := by
          unfold levelOf at hl
          split at hl
          · simp only [Option.some.injEq] at hl
            omega
          · cases hl
        simp [List.contains_eq_mem, this]
  · intro l hl
    simp only [List.mem_cons] at hl
    rcases hl with rfl | hl
    · simp
    · exact he.smallBound l hl

theorem Agree.enterAll {H} : ∀ (ns : List String) {G Γ}, Agree G H Γ →
    Agree (ns.foldl (fun g x => g.enter x) G) H (ns.reverse ++ Γ) := by
  intro ns
  induction ns with
  | nil => intro G Γ h; exact h
  | cons n ns ih =>
    intro G Γ h
    have := ih (h.enter n)
    simpa using this

theorem foldl_enter (ds : List (String × Term)) (G : GCtx) :
    ds.foldl (fun g d => g.enter d.1) G = (names ds).foldl (fun g x => g.enter x) G := by
  induction ds generalizing G with
  | nil => rfl
  | cons d ds ih => simp only [List.foldl_cons, names, List.map_cons]; exact ih _

theorem headVar_agree {Γ} (t : Term) : ∀ {A}, toDb Γ t = .ok A →
    (∀ x, headVar t = some x → ∃ k, place x Γ = some k ∧ A.headVar = some k) ∧ (headVar t = none → A.headVar = none) := by
  induction t using Term.ind with
  | var x =>
    intro A h
    simp only [toDb, lookup_place] at h
    cases hp : place x Γ with
    | none => simp [hp] at h
    | some k =>
      simp only [hp, Option.map_some, Except.ok.injEq] at h
      subst h
      simp only [headVar, Option.some.injEq, Db.headVar, reduceCtorEq, false_imp_iff, and_true]
      rintro _ rfl
      exact ⟨k, hp, by simp⟩
  | app f a ihf _ =>
    intro A h
    simp only [toDb, ok_bind, Except.ok.injEq] at h
    obtain ⟨F, hF, B, _, rfl⟩ := h
    simpa only [headVar, Db.headVar] using ihf hF
  | hole =>
    intro A h
    simp [toDb] at h
  | _ =>
    intro A h
    simp only [toDb, ok_bind, Except.ok.injEq] at h
    first
      | (obtain ⟨_, _, _, _, _, _, rfl⟩ := h; simp [headVar, Db.headVar])
      | (obtain ⟨_, _, _, _, rfl⟩ := h; simp [headVar, Db.headVar])
      | (obtain ⟨_, _, rfl⟩ := h; simp [headVar, Db.headVar])
      | (subst h; simp [headVar, Db.headVar])

theorem argSmaller_agree {G H Γ t A} (hA : Agree G H Γ) (h : toDb Γ t = .ok A) :
    G.argSmaller t = H.argSmaller Γ.length A := by
  obtain ⟨h1, h2⟩ := headVar_agree t h
  simp only [GCtx.argSmaller, LCtx.argSmaller]
  cases hh : headVar t with
  | none => simp [h2 hh]
  | some x =>
    obtain ⟨k, hk, hA'⟩ := h1 x hh
    simp only [hA', Option.bind_some, hA.smaller x k hk]
    cases levelOf Γ.length k <;> rfl

theorem guarded_agree {D : Decls} (t : Term) : ∀ {G H Γ n args dargs A}, Agree G H Γ →
    CasesFit (D.ctors G.type).length t → toDb Γ t = .ok A →
    List.Forall₂ (fun c A => toDb Γ c = .ok A) args dargs →
    guarded D G n args t = dguard D H Γ.length n dargs A := by
  induction t using Term.ind with
  | var x =>
    intro G H Γ n args dargs A hA _ h hargs
    simp only [toDb, lookup_place] at h
    cases hp : place x Γ with
    | none => simp [hp] at h
    | some k =>
      simp only [hp, Option.map_some, Except.ok.injEq, Nat.add_zero] at h
      subst h
      simp only [guarded, dguard, hA.member x k hp]
      cases H.member Γ.length k with
      | none => rfl
      | some p =>
        have : ∀ (p : Nat), (args[p]? = none ∧ dargs[p]? = none) ∨
            ∃ s s', args[p]? = some s ∧ dargs[p]? = some s' ∧ toDb Γ s = .ok s' := by
          intro p
          induction hargs generalizing p with
          | nil => left; simp
          | @cons a b l l' hab _ ih =>
            cases p with
            | zero => right; exact ⟨a, b, rfl, rfl, hab⟩
            | succ p => simpa using ih p
        rcases this p with ⟨h1, h2⟩ | ⟨s, s', h1, h2, h3⟩
        · simp [h1, h2]
        · simp only [h1, h2]
          exact argSmaller_agree hA h3
  | app f a ihf iha =>
    intro G H Γ n args dargs A hA hc h hargs
    simp only [toDb, ok_bind, Except.ok.injEq] at h
    obtain ⟨F, hF, B, hB, rfl⟩ := h
    simp only [CasesFit] at hc
    simp only [guarded, dguard]
    rw [ihf hA hc.1 hF (.cons hB hargs), iha hA hc.2 hB .nil]
  | lam x a b iha ihb =>
    intro G H Γ n args dargs A hA hc h hargs
    simp only [toDb, ok_bind, Except.ok.injEq] at h
    obtain ⟨A', hA', B, hB, rfl⟩ := h
    simp only [CasesFit] at hc
    cases n with
    | zero =>
      simp only [guarded, dguard]
      rw [iha hA hc.1 hA' .nil, ihb (hA.enter x) hc.2 hB .nil]
      rfl
    | succ n =>
      simp only [guarded, dguard]
      rw [ihb (hA.mark x) hc.2 hB .nil]
      rfl
  | pi x a b iha ihb =>
    intro G H Γ n args dargs A hA hc h hargs
    simp only [toDb, ok_bind, Except.ok.injEq] at h
    obtain ⟨A', hA', B, hB, rfl⟩ := h
    simp only [CasesFit] at hc
    simp only [guarded, dguard]
    rw [iha hA hc.1 hA' .nil, ihb (hA.enter x) hc.2 hB .nil]
    rfl
  | fix x b ihb =>
    intro G H Γ n args dargs A hA hc h hargs
    simp only [toDb, ok_bind, Except.ok.injEq] at h
    obtain ⟨B, hB, rfl⟩ := h
    simp only [CasesFit] at hc
    simp only [guarded, dguard]
    rw [ihb (hA.enter x) hc hB .nil]
    rfl
  | letE x ty v b iht ihv ihb =>
    intro G H Γ n args dargs A hA hc h hargs
    simp only [toDb, ok_bind, Except.ok.injEq] at h
    obtain ⟨T, hT, V, hV, B, hB, rfl⟩ := h
    simp only [CasesFit] at hc
    simp only [guarded, dguard]
    rw [iht hA hc.1 hT .nil, ihv hA hc.2.1 hV .nil, ihb (hA.enter x) hc.2.2 hB .nil]
    rfl
  | mtch d m cs ihd ihm ihcs =>
    intro G H Γ n args dargs A hA hc h hargs
    simp only [toDb, ok_bind, Except.ok.injEq] at h
    obtain ⟨E, hE, M, hM, CS, hCS, rfl⟩ := h
    simp only [CasesFit] at hc
    rw [toDbL_ok] at hCS
    simp only [guarded, dguard]
    rw [ihm hA hc.2.1 hM .nil]
    congr 1
    have hpar : G.isParam d = H.isParam Γ.length E := by
      cases d with
      | var x =>
        simp only [toDb, lookup_place] at hE
        cases hp : place x Γ with
        | none => simp [hp] at hE
        | some k =>
          simp only [hp, Option.map_some, Except.ok.injEq, Nat.add_zero] at hE
          subst hE
          exact hA.param x k hp
      | hole => simp [toDb] at hE
      | _ =>
        simp only [toDb, ok_bind, Except.ok.injEq] at hE
        first
          | (obtain ⟨_, _, _, _, _, _, rfl⟩ := hE; rfl)
          | (obtain ⟨_, _, _, _, rfl⟩ := hE; rfl)
          | (obtain ⟨_, _, rfl⟩ := hE; rfl)
          | (subst hE; rfl)
    rw [hpar]
    split
    · rw [← hA.type]
      have key : ∀ (ns : List Nat), cs.length ≤ ns.length → CasesFitL (D.ctors G.type).length cs →
          guardedCases D G ns cs = dguardCases D H Γ.length ns CS := by
        clear hc
        induction hCS with
        | nil => intro ns _ _; simp [guardedCases, dguardCases]
        | @cons c C cs CS hcC hrest ih =>
          intro ns hl hfit
          simp only [CasesFitL] at hfit
          cases ns with
          | nil => simp at hl
          | cons n ns =>
            simp only [guardedCases, dguardCases]
            rw [ihcs c (by simp) hA hfit.1 hcC .nil, ih (fun c hc => ihcs c (by simp [hc])) ns (by simpa using hl) hfit.2]
      exact key _ (by simpa using hc.2.2.1) hc.2.2.2
    · rw [ihd hA hc.1 hE .nil]
      congr 1
      have key : CasesFitL (D.ctors G.type).length cs → guardedAll D G cs = dguardAll D H Γ.length CS := by
        clear hc
        induction hCS with
        | nil => intro _; simp [guardedAll, dguardAll]
        | @cons c C cs CS hcC hrest ih =>
          intro hfit
          simp only [CasesFitL] at hfit
          simp only [guardedAll, dguardAll]
          rw [ihcs c (by simp) hA hfit.1 hcC .nil, ih (fun c hc => ihcs c (by simp [hc])) hfit.2]
      exact key hc.2.2.2
  | mfix ds i ih =>
    intro G H Γ n args dargs A hA hc h hargs
    simp only [toDb, ok_bind, Except.ok.injEq] at h
    obtain ⟨DS, hDS, rfl⟩ := h
    rw [toDbD_ok] at hDS
    simp only [CasesFit] at hc
    simp only [guarded, dguard]
    have hlen : DS.length = (names ds).length := by rw [← hDS.length_eq]; simp [names]
    have hA' := hA.enterAll (names ds)
    rw [foldl_enter]
    generalize (names ds).foldl (fun g x => g.enter x) G = G' at hA'
    have ht : D.ctors G.type = D.ctors G'.type := by rw [hA.type, hA'.type]
    rw [ht] at hc
    have hdepth : Γ.length + DS.length = ((names ds).reverse ++ Γ).length := by
      simp [hlen]; omega
    rw [hdepth]
    generalize (names ds).reverse ++ Γ = Δ at hA' hDS
    clear hlen hdepth hargs hA ht
    induction hDS with
    | nil => simp [guardedDefs, dguardAll]
    | @cons d C ds DS hcC hrest ih2 =>
      obtain ⟨x, b⟩ := d
      simp only [CasesFitD] at hc
      simp only [guardedDefs, dguardAll]
      rw [ih (x, b) (by simp) hA' hc.1 hcC .nil, ih2 (fun c hc => ih c (by simp [hc])) hc.2]
  | hole =>
    intro G H Γ n args dargs A _ _ h
    simp [toDb] at h
  | _ =>
    intro G H Γ n args dargs A _ _ h _
    simp only [toDb, Except.ok.injEq] at h
    subst h
    simp [guarded, dguard]

/-! ## The structural parameter -/

theorem indName_agree {D : Decls} (t : Term) : ∀ {Γ A}, toDb Γ t = .ok A → A.indName D = inductiveName D t := by
  induction t using Term.ind with
  | var x =>
    intro Γ A h
    simp only [toDb] at h
    split at h
    · cases h; rfl
    · cases h
  | app f a ihf _ =>
    intro Γ A h
    simp only [toDb, ok_bind, Except.ok.injEq] at h
    obtain ⟨F, hF, B, _, rfl⟩ := h
    simpa only [inductiveName, Db.indName] using ihf hF
  | hole =>
    intro Γ A h
    simp [toDb] at h
  | _ =>
    intro Γ A h
    simp only [toDb, ok_bind, Except.ok.injEq] at h
    first
      | (subst h; rfl)
      | (obtain ⟨_, _, rfl⟩ := h; rfl)
      | (obtain ⟨_, _, _, _, rfl⟩ := h; rfl)
      | (obtain ⟨_, _, _, _, _, _, rfl⟩ := h; rfl)

theorem tele_agree {D : Decls} (t : Term) : ∀ {Γ B}, toDb Γ t = .ok B →
    B.doms.map (Db.indName D) = (telescope t).map (fun e => inductiveName D e.2) ∧
      toDb (((telescope t).map Prod.fst).reverse ++ Γ) (underTelescope t) = .ok B.under := by
  induction t using Term.ind with
  | lam x a b _ ihb =>
    intro Γ B h
    simp only [toDb, ok_bind, Except.ok.injEq] at h
    obtain ⟨A', hA', B', hB, rfl⟩ := h
    obtain ⟨h1, h2⟩ := ihb hB
    simp only [Db.doms, telescope, List.map_cons, h1, indName_agree a hA', true_and, List.reverse_cons, List.append_assoc,
      List.singleton_append, underTelescope, Db.under]
    exact h2
  | var x =>
    intro Γ B h
    have h' := h
    simp only [toDb] at h
    split at h
    · cases h; exact ⟨rfl, h'⟩
    · cases h
  | hole =>
    intro Γ A h
    simp [toDb] at h
  | _ =>
    intro Γ A h
    have h' := h
    simp only [toDb, ok_bind, Except.ok.injEq] at h
    first
      | (subst h; exact ⟨rfl, h'⟩)
      | (obtain ⟨_, _, rfl⟩ := h; exact ⟨rfl, h'⟩)
      | (obtain ⟨_, _, _, _, rfl⟩ := h; exact ⟨rfl, h'⟩)
      | (obtain ⟨_, _, _, _, _, _, rfl⟩ := h; exact ⟨rfl, h'⟩)

theorem peel_agree (k : Nat) : ∀ (t : Term) {Γ B}, toDb Γ t = .ok B → k ≤ (telescope t).length →
    toDb ((((telescope t).map Prod.fst).take k).reverse ++ Γ) (peel k t) = .ok (B.peel k) := by
  induction k with
  | zero => intro t Γ B h _; simpa [peel, Db.peel] using h
  | succ k ih =>
    intro t Γ B h hk
    cases t with
    | lam x a b =>
      simp only [toDb, ok_bind, Except.ok.injEq] at h
      obtain ⟨A', hA', B', hB, rfl⟩ := h
      have := ih b hB (by simpa [telescope] using hk)
      simpa [telescope, peel, Db.peel] using this
    | _ => simp [telescope] at hk

theorem place_rev_none {d : String} : ∀ (ns Γ : List String), d ∉ ns → place d (ns.reverse ++ Γ) = (place d Γ).map (· + ns.length) := by
  intro ns
  induction ns with
  | nil => intro Γ _; simp
  | cons n ns ih =>
    intro Γ h
    simp only [List.mem_cons, not_or] at h
    have := ih (n :: Γ) h.2
    simp only [List.reverse_cons, List.append_assoc, List.singleton_append, this, place, Ne.symm h.1, if_false,
      Option.map_map, List.length_cons]
    congr 1
    funext k
    simp only [Function.comp]
    omega

theorem position_none {d : String} : ∀ (ns : List String), position (· == d) ns = none ↔ d ∉ ns := by
  intro ns
  induction ns with
  | nil => simp [position]
  | cons n ns ih =>
    simp only [position, List.mem_cons, not_or]
    by_cases h : n = d
    · simp [h]
    · simp [h, ih, Ne.symm h]

theorem place_rev_some {d : String} : ∀ (ns Γ : List String) (p : Nat), ns.Nodup → position (· == d) ns = some p →
    p < ns.length ∧ place d (ns.reverse ++ Γ) = some (ns.length - 1 - p) := by
  intro ns
  induction ns with
  | nil => intro Γ p _ h; simp [position] at h
  | cons n ns ih =>
    intro Γ p hn h
    simp only [List.nodup_cons] at hn
    simp only [position] at h
    by_cases e : n = d
    · subst e
      simp only [beq_self_eq_true, if_true, Option.some.injEq] at h
      subst h
      refine ⟨by simp, ?_⟩
      simp only [List.reverse_cons, List.append_assoc, List.singleton_append, place_rev_none ns _ hn.1, place, if_true,
        Option.map_some, List.length_cons]
      congr 1
      omega
    · simp only [beq_iff_eq, e, if_false, Option.map_eq_some_iff] at h
      obtain ⟨q, hq, rfl⟩ := h
      obtain ⟨h1, h2⟩ := ih (n :: Γ) q hn.2 hq
      refine ⟨by simp only [List.length_cons]; omega, ?_⟩
      simp only [List.reverse_cons, List.append_assoc, List.singleton_append, h2, List.length_cons]
      congr 1
      omega

theorem position_map {α β : Type} (g : α → β) (q : β → Bool) : ∀ (l : List α), position q (l.map g) = position (fun a => q (g a)) l := by
  intro l
  induction l with
  | nil => rfl
  | cons a l ih => simp only [List.map_cons, position, ih]

theorem place_lt' {x : String} : ∀ (Γ : List String) {k : Nat}, place x Γ = some k → k < Γ.length ∧ Γ[k]? = some x := by
  intro Γ
  induction Γ with
  | nil => intro k h; simp [place] at h
  | cons y Γ ih =>
    intro k h
    simp only [place] at h
    by_cases e : y = x
    · simp only [e, if_true, Option.some.injEq] at h
      subst h
      simp [e]
    · simp only [e, if_false, Option.map_eq_some_iff] at h
      obtain ⟨j, hj, rfl⟩ := h
      have := ih hj
      simpa using this

theorem scrutinee_agree {Γ : List String} {chain : List (String × Term)} {u : Term} {U : Db}
    (hn : (chain.map Prod.fst).Nodup) (h : toDb ((chain.map Prod.fst).reverse ++ Γ) u = .ok U) :
    Db.scrutinee Γ.length chain.length U = scrutinee chain u := by
  have other : (∀ d m cs, u ≠ .mtch (.var d) m cs) → (∀ k M CS, U ≠ .mtch (.var k) M CS) →
      Db.scrutinee Γ.length chain.length U = scrutinee chain u := by
    intro h1 h2
    have e1 : scrutinee chain u = none := by
      unfold scrutinee
      split
      · exact absurd rfl (h1 _ _ _)
      · rfl
    have e2 : Db.scrutinee Γ.length chain.length U = none := by
      unfold Db.scrutinee
      split
      · exact absurd rfl (h2 _ _ _)
      · rfl
    rw [e1, e2]
  cases u with
  | mtch d m cs =>
    simp only [toDb, ok_bind, Except.ok.injEq] at h
    obtain ⟨E, hE, M, hM, CS, hCS, rfl⟩ := h
    cases d with
    | var x =>
      simp only [toDb, lookup_place] at hE
      cases hp : place x ((chain.map Prod.fst).reverse ++ Γ) with
      | none => simp [hp] at hE
      | some k =>
        simp only [hp, Option.map_some, Except.ok.injEq, Nat.add_zero] at hE
        subst hE
        have hlen : (chain.map Prod.fst).length = chain.length := by simp
        simp only [Db.scrutinee, scrutinee, ← position_map Prod.fst (· == x)]
        cases hq : position (· == x) (chain.map Prod.fst) with
        | none =>
          rw [place_rev_none _ _ ((position_none _).1 hq), Option.map_eq_some_iff] at hp
          obtain ⟨j, hj, rfl⟩ := hp
          rw [hlen]
          have := (place_lt' _ hj).1
          simp only [levelOf]
          rw [if_pos (by omega), Option.bind_some, if_neg (by omega)]
        | some p =>
          obtain ⟨h1, h2⟩ := place_rev_some _ Γ p hn hq
          rw [h2, Option.some.injEq] at hp
          rw [hlen] at h1 hp
          subst hp
          simp only [levelOf]
          rw [if_pos (by omega), Option.bind_some, if_pos (by omega)]
          congr 1
          omega
    | hole => simp [toDb] at hE
    | _ =>
      simp only [toDb, ok_bind, Except.ok.injEq] at hE
      first
        | (subst hE; rfl)
        | (obtain ⟨_, _, rfl⟩ := hE; rfl)
        | (obtain ⟨_, _, _, _, rfl⟩ := hE; rfl)
        | (obtain ⟨_, _, _, _, _, _, rfl⟩ := hE; rfl)
  | var x =>
    simp only [toDb] at h
    split at h
    · cases h; rfl
    · cases h
  | hole => simp [toDb] at h
  | _ =>
    simp only [toDb, ok_bind, Except.ok.injEq] at h
    first
      | (subst h; rfl)
      | (obtain ⟨_, _, rfl⟩ := h; rfl)
      | (obtain ⟨_, _, _, _, rfl⟩ := h; rfl)
      | (obtain ⟨_, _, _, _, _, _, rfl⟩ := h; rfl)

theorem structPos_choose (D : Decls) (body : Term) :
    structPos D body = choose ((telescope body).map fun e => inductiveName D e.2)
      (scrutinee (telescope body) (underTelescope body)) := by
  have h : ∀ p, inductiveAt D (telescope body) p =
      ((((telescope body).map fun e => inductiveName D e.2)[p]?).join).isSome := by
    intro p
    simp only [inductiveAt, List.getElem?_map]
    cases (telescope body)[p]? <;> rfl
  simp only [structPos, choose, position_map, funext h]
  rfl

theorem agree_start {f : String} {ns Γ0 : List String} {p : Nat} {x ty : String} (hf : f ∉ ns) (hn : ns.Nodup)
    (hx : ns[p]? = some x) :
    Agree (GCtx.start [(f, p)] x ty) ⟨[(Γ0.length, p)], Γ0.length + 1 + p, ty, []⟩ ((ns.take (p + 1)).reverse ++ f :: Γ0) := by
  have hp : p < ns.length := (List.getElem?_eq_some_iff.1 hx).1
  have hlen : ((ns.take (p + 1)).reverse ++ f :: Γ0).length = Γ0.length + p + 2 := by
    simp only [List.length_append, List.length_reverse, List.length_take, List.length_cons]
    omega
  have htake : ns.take (p + 1) = ns.take p ++ [x] := by
    rw [List.take_add_one, hx]; rfl
  have hhead : ((ns.take (p + 1)).reverse ++ f :: Γ0) = x :: ((ns.take p).reverse ++ f :: Γ0) := by
    rw [htake]; simp
  have hf' : f ∉ ns.take (p + 1) := fun h => hf (List.mem_of_mem_take h)
  have hfp : place f ((ns.take (p + 1)).reverse ++ f :: Γ0) = some (p + 1) := by
    rw [place_rev_none _ _ hf']
    simp only [place, if_true, Option.map_some, List.length_take, Nat.zero_add]
    congr 1
    omega
  have hxp : place x ((ns.take (p + 1)).reverse ++ f :: Γ0) = some 0 := by
    rw [hhead]; simp [place]
  have inj : ∀ {y z k}, place y ((ns.take (p + 1)).reverse ++ f :: Γ0) = some k →
      place z ((ns.take (p + 1)).reverse ++ f :: Γ0) = some k → y = z := by
    intro y z k h1 h2
    have a := (place_lt' _ h1).2
    have b := (place_lt' _ h2).2
    rw [a] at b
    exact Option.some.inj b
  refine ⟨rfl, ?_, ?_, ?_, ?_, ?_, ?_⟩
  · intro y k hk
    have hlt := (place_lt' _ hk).1
    rw [hlen] at hlt ⊢
    simp only [LCtx.member, levelOf, if_pos hlt, Option.bind_some]
    by_cases e : y = f
    · subst e
      rw [hfp, Option.some.injEq] at hk
      subst hk
      have : Γ0.length + p + 2 - 1 - (p + 1) = Γ0.length := by omega
      simp [GCtx.member, GCtx.start, List.lookup, this]
    · have hne : k ≠ p + 1 := fun h => e (inj hk (h ▸ hfp))
      have h1 : (y == f) = false := by simp [e]
      have h2 : (Γ0.length + p + 2 - 1 - k == Γ0.length) = false := by simp; omega
      simp only [GCtx.member, GCtx.start, List.lookup, h1, h2]
      simp
  · intro y k hk
    cases levelOf ((ns.take (p + 1)).reverse ++ f :: Γ0).length k <;> simp [GCtx.start]
  · intro y k hk
    have hlt := (place_lt' _ hk).1
    rw [hlen] at hlt ⊢
    simp only [levelOf, if_pos hlt]
    by_cases e : y = x
    · subst e
      rw [hxp, Option.some.injEq] at hk
      subst hk
      have : Γ0.length + p + 2 - 1 - 0 = Γ0.length + 1 + p := by omega
      rw [this]
      simp [GCtx.start]
    · have hne : k ≠ 0 := fun h => e (inj hk (h ▸ hxp))
      have h1 : (y == x) = false := by simp [e]
      have h2 : (some (Γ0.length + p + 2 - 1 - k) == some (Γ0.length + 1 + p)) = false := by simp; omega
      rw [h2]
      show (true && (y == x)) = false
      rw [h1]
      rfl
  · intro l hl
    rw [hlen] at hl
    have h2 : (l == Γ0.length) = false := by simp; omega
    simp [List.lookup, h2]
  · intro l hl
    cases hl
  · rw [hlen]
    show Γ0.length + 1 + p < _
    omega

/-- **The two guards agree.** -/
theorem checks_agree {D : Decls} {W : Db → Db} {f : String} {body : Term} {B : Db} {Γ0 : List String}
    (h : toDb (f :: Γ0) body = .ok B) (hf : f ∉ (telescope body).map Prod.fst)
    (hn : ((telescope body).map Prod.fst).Nodup) (hW : ∀ a ∈ B.doms, (W a).indName D = a.indName D)
    (hc : ∀ p ty, ((telescope body)[p]?.bind fun e => inductiveName D e.2) = some ty →
      CasesFit (D.ctors ty).length (peel (p + 1) body)) :
    checkTerminates D W Γ0.length B = checkTermination D f body := by
  obtain ⟨h1, h2⟩ := tele_agree (D := D) body h
  have hlen : B.doms.length = (telescope body).length := by
    have := congrArg List.length h1
    simpa using this
  have hs := scrutinee_agree (Γ := f :: Γ0) hn h2
  have hinds : (B.doms.map fun a => (W a).indName D) = (telescope body).map (fun e => inductiveName D e.2) := by
    rw [← h1]
    exact List.map_congr_left hW
  simp only [checkTerminates, checkTermination, locate, structParam, structPos_choose, hinds]
  rw [hlen, show Γ0.length + 1 = (f :: Γ0).length from rfl, hs]
  cases hch : choose ((telescope body).map fun e => inductiveName D e.2)
      (scrutinee (telescope body) (underTelescope body)) with
  | none => rfl
  | some p =>
    simp only [Option.bind_some, List.getElem?_map]
    cases he : (telescope body)[p]? with
    | none => rfl
    | some e =>
      cases hi : inductiveName D e.2 with
      | none => simp [hi]
      | some ty =>
        simp only [Option.map_some, Option.join_some, hi]
        have hp : p < (telescope body).length := (List.getElem?_eq_some_iff.1 he).1
        have hx : ((telescope body).map Prod.fst)[p]? = some e.1 := by simp [he]
        have hag := agree_start (ty := ty) (Γ0 := Γ0) hf hn hx
        have hpe := peel_agree (p + 1) body h hp
        have key := guarded_agree (D := D) (n := 0) (args := []) (dargs := []) (peel (p + 1) body) hag
          (by simpa [GCtx.start] using hc p ty (by simp [he, hi])) hpe .nil
        have hl : ((((telescope body).map Prod.fst).take (p + 1)).reverse ++ f :: Γ0).length = Γ0.length + 1 + p + 1 := by
          simp only [List.length_append, List.length_reverse, List.length_take, List.length_map, List.length_cons]
          omega
        rw [hl] at key
        exact key.symm

end Verif.Core
