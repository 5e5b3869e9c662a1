import Verif.Lang.GvnSound

/-! # Hoisting a computation that occurs twice in one `Let` -/
namespace Verif.Lang.Gvn

section
variable {I : Inst} {n : Nat} {top : Bool} {tmp : Nat → Sym}

/-- The value or error of an expression. -/
def pv (I : Inst) (e : Expr) (s : State) : Except Err Value := (evalE I e s).1

theorem eval_pv {e : Expr} (h : simple e = true) (s : State) : evalE I e s = (pv I e s, s) :=
  Prod.ext rfl (simple_state e s h)

theorem pv_congr {e : Expr} (h : simple e = true) {s s' : State}
    (hn : ∀ x ∈ names e, s.env.lookup x = s'.env.lookup x) : pv I e s = pv I e s' :=
  simple_congr e s s' h hn

theorem pv_bin {op : BinOp} {a b : Expr} (ha : simple a = true) (hb : simple b = true)
    (h1 : op ≠ .and) (h2 : op ≠ .or) (s : State) :
    pv I (.bin op a b) s = (pv I a s).bind fun x => (pv I b s).bind fun y => I.ap op x y := by
  unfold pv
  simp only [evalE]
  unfold evBin
  split
  · exact absurd rfl h1
  · exact absurd rfl h2
  · rw [eval_pv ha]
    unfold pv
    cases (evalE I a s).1 with
    | error e => rfl
    | ok v =>
      show ((evalE I b s).bind fun b s'' => lift (I.ap op v b) s'').1 = _
      rw [eval_pv hb]
      unfold pv
      cases (evalE I b s).1 <;> rfl

theorem pv_index {a b : Expr} (ha : simple a = true) (hb : simple b = true) (s : State) :
    pv I (.index a b) s = (pv I a s).bind fun x => (pv I b s).bind fun y => I.P.index x y := by
  unfold pv
  simp only [evalE]
  rw [eval_pv ha]
  unfold pv
  cases (evalE I a s).1 with
  | error e => rfl
  | ok v =>
    show ((evalE I b s).bind fun b s'' => lift (I.P.index v b) s'').1 = _
    rw [eval_pv hb]
    unfold pv
    cases (evalE I b s).1 <;> rfl

theorem pv_length {a : Expr} (ha : simple a = true) (s : State) :
    pv I (.length a) s = (pv I a s).bind fun x => I.P.length x := by
  unfold pv
  simp only [evalE]
  rw [eval_pv ha]
  unfold pv
  cases (evalE I a s).1 <;> rfl

theorem pv_not {a : Expr} (ha : simple a = true) (s : State) :
    pv I (.not a) s = (pv I a s).bind fun x => .ok (.bool (!truthy I.P x)) := by
  unfold pv
  simp only [evalE]
  rw [eval_pv ha]
  unfold pv
  cases (evalE I a s).1 <;> rfl

theorem pv_var (hr : ∀ x v, I.reads x v = true) {x : Sym} {v : Value} {s : State}
    (h : s.env.lookup x = some v) : pv I (.var x) s = .ok v := by
  simp [pv, evalE, evVar, h, hr]

theorem execs_append : ∀ (ss ts : List Stmt) (s : State), execs I n (ss ++ ts) s =
    (execs I n ss s).bind fun fl s' => match fl with
      | .cont => execs I n ts s'
      | other => (.ok other, s')
  | [], ts, s => by simp [execs, Res.bind]
  | st :: ss, ts, s => by
    simp only [List.cons_append, execs]
    rcases exec I n st s with ⟨r, s1⟩
    cases r with
    | error e => rfl
    | ok fl =>
      cases fl with
      | cont => exact execs_append ss ts s1
      | brk => rfl
      | ret v => rfl

/-- The state while hoisting: names that are no temporaries are as at the start, and the
temporaries made so far hold their computations. -/
structure Good (I : Inst) (top : Bool) (tmp : Nat → Sym) (r : Rw) (s0 s : State) : Prop where
  at_ : At top s
  same : ∀ y, (∀ i, y ≠ tmp i) → s.env.lookup y = s0.env.lookup y
  out : s.out = s0.out
  funs : s.funs = s0.funs
  clos : s.clos = s0.clos
  known : ∀ k y, (k, y) ∈ r.loc ∨ (k, y) ∈ r.st.cache →
    (∃ i, i < r.st.counter ∧ y = tmp i) ∧ ∃ v, pv I k.expr s0 = .ok v ∧ s.env.lookup y = some v

/-- The names of a rewritten expression: those of the program, and temporaries already made. -/
def Fit (tmp : Nat → Sym) (e : Expr) (k : Nat) : Prop :=
  simple e = true ∧ ∀ z ∈ names e, (∀ i, z ≠ tmp i) ∨ ∃ i, i < k ∧ z = tmp i

/-- What running the statements `h` and then evaluating `e'` does, compared with `e`: the
statements fail and so does `e`, or they go through and `e'` has the value of `e` or fails like
it. -/
def Agrees (I : Inst) (n : Nat) (top : Bool) (tmp : Nat → Sym) (e : Expr) (s0 s : State)
    (r : Rw) (h : List Stmt) (e' : Expr) (r' : Rw) : Prop :=
  (∃ err err' s', pv I e s0 = .error err ∧ execs I n h s = (.error err', s') ∧ s'.out = s0.out) ∨
    ∃ s', execs I n h s = (.ok .cont, s') ∧ Good I top tmp r' s0 s' ∧
      r.st.counter ≤ r'.st.counter ∧ Fit tmp e' r'.st.counter ∧
      (∀ y, (∀ i, r.st.counter ≤ i → y ≠ tmp i) → s'.env.lookup y = s.env.lookup y) ∧
      ((∃ v, pv I e s0 = .ok v ∧ pv I e' s' = .ok v) ∨
       ∃ err err', pv I e s0 = .error err ∧ pv I e' s' = .error err')

theorem Fit.mono {e : Expr} {j k : Nat} (h : Fit tmp e j) (hjk : j ≤ k) : Fit tmp e k :=
  ⟨h.1, fun z hz => (h.2 z hz).imp id fun ⟨i, h1, h2⟩ => ⟨i, by omega, h2⟩⟩

theorem Fit.keep (hinj : ∀ i j, tmp i = tmp j → i = j) {e : Expr} {k : Nat} (h : Fit tmp e k)
    {s s' : State}
    (hs : ∀ y, (∀ i, k ≤ i → y ≠ tmp i) → s'.env.lookup y = s.env.lookup y) :
    pv I e s' = pv I e s := by
  refine pv_congr h.1 fun z hz => hs z ?_
  rintro i hi rfl
  rcases h.2 _ hz with h | ⟨j, h1, h2⟩
  · exact h i rfl
  · have := hinj _ _ h2; omega

/-- The tail of the rewriting. -/
theorem hoist_agrees (hr : ∀ x v, I.reads x v = true) (hinj : ∀ i j, tmp i = tmp j → i = j)
    {counts : List Key} {e e' : Expr} {s0 : State} {r r1 : Rw} {h : List Stmt}
    (hh : r1.hoisted = r.hoisted ++ h)
    (hA : ∀ s, Good I top tmp r s0 s → Agrees I n top tmp e s0 s r h e' r1) :
    ∃ h', (r1.hoist tmp counts (keyOf e) e').2.hoisted = r.hoisted ++ h' ∧
      ∀ s, Good I top tmp r s0 s → Agrees I n top tmp e s0 s r h'
        (r1.hoist tmp counts (keyOf e) e').1 (r1.hoist tmp counts (keyOf e) e').2 := by
  cases hk : keyOf e with
  | none => exact ⟨h, by simpa [Rw.hoist] using hh, by simpa [Rw.hoist] using hA⟩
  | some k =>
    by_cases hc : (nonTrivial e' && decide (1 < counts.count k)) = true
    · have he : k.expr = e := keyOf_expr e k hk
      simp only [Rw.hoist, hc, if_true]
      refine ⟨h ++ [.letS (tmp r1.st.counter) false false e'], by simp [hh], fun s hg => ?_⟩
      rcases hA s hg with ⟨err, err', s', h1, h2, h3⟩ | ⟨s', h1, h2, up, fit, h3, h4⟩
      · left
        exact ⟨err, err', s', h1, by rw [execs_append, h2]; rfl, h3⟩
      · have hx : execs I n (h ++ [.letS (tmp r1.st.counter) false false e']) s =
            (evalE I e' s').bind (doDefine (tmp r1.st.counter)) := by
          rw [execs_append, h1]
          show execs I n [_] s' = _
          rw [execs_single]
          simp only [exec]
        rw [eval_pv fit.1] at hx
        rcases h4 with ⟨v, h5, h6⟩ | ⟨err, err', h5, h6⟩
        · rw [h6] at hx
          right
          obtain ⟨d1, d2, d3, d4⟩ := h2.at_.define (tmp r1.st.counter) v
          refine ⟨s'.withEnv (·.define (tmp r1.st.counter) v), hx, ?_, ?_, ?_, ?_, ?_⟩
          · refine ⟨d1, ?_, h2.out, h2.funs, h2.clos, ?_⟩
            · intro y hy
              rw [(d4 y (hy _)).1]
              exact h2.same y hy
            · intro k' y hm
              have hm' : (k' = k ∧ y = tmp r1.st.counter) ∨
                  ((k', y) ∈ r1.loc ∨ (k', y) ∈ r1.st.cache) := by
                simp only [Cse.insert, List.mem_cons, Prod.mk.injEq, List.mem_filter] at hm
                tauto
              rcases hm' with ⟨rfl, rfl⟩ | hm'
              · refine ⟨⟨r1.st.counter, ?_, rfl⟩, v, by rw [he]; exact h5, d2⟩
                show r1.st.counter < r1.st.counter + 1
                omega
              · obtain ⟨⟨i, hi, rfl⟩, w, g1, g2⟩ := h2.known k' y hm'
                refine ⟨⟨i, ?_, rfl⟩, w, g1, ?_⟩
                · show i < r1.st.counter + 1
                  omega
                · rw [(d4 _ _).1]
                  · exact g2
                  · intro hne
                    have := hinj _ _ hne
                    omega
          · show r.st.counter ≤ r1.st.counter + 1
            omega
          · refine ⟨rfl, fun z hz => .inr ⟨r1.st.counter, ?_, by simpa [names] using hz⟩⟩
            show r1.st.counter < r1.st.counter + 1
            omega
          · intro y hy
            rw [(d4 y (hy _ up)).1]
            exact h3 y hy
          · left
            exact ⟨v, h5, pv_var hr d2⟩
        · rw [h6] at hx
          left
          exact ⟨err, err', s', h5, hx, h2.out⟩
    · have : r1.hoist tmp counts (some k) e' = (e', r1) := by simp [Rw.hoist, hc]
      rw [this]
      exact ⟨h, hh, hA⟩

/-- An expression already computed. -/
theorem known_agrees (hr : ∀ x v, I.reads x v = true) {e : Expr} {s0 s : State} {r : Rw} {y : Sym}
    (hk : r.known e = some y) (hg : Good I top tmp r s0 s) :
    Agrees I n top tmp e s0 s r [] (.var y) r := by
  have hm : ∃ k, keyOf e = some k ∧ ((k, y) ∈ r.loc ∨ (k, y) ∈ r.st.cache) := by
    unfold Rw.known at hk
    split at hk
    · cases hk
    · rename_i k hk'
      refine ⟨k, hk', ?_⟩
      split at hk
      · rename_i p hp
        cases hk
        left
        have h2 := List.mem_of_find?_eq_some hp
        have h3 := List.find?_some hp
        simp only [beq_iff_eq] at h3
        rw [← h3]; exact h2
      · split at hk
        · exact .inr (lookup_mem hk)
        · cases hk
  obtain ⟨k, hk1, hm⟩ := hm
  obtain ⟨⟨i, hi, rfl⟩, v, h1, h2⟩ := hg.known k y hm
  rw [keyOf_expr e k hk1] at h1
  exact .inr ⟨s, by simp [execs], hg, Nat.le_refl _,
    ⟨rfl, fun z hz => .inr ⟨i, hi, by simpa [names] using hz⟩⟩,
    fun _ _ => rfl, .inl ⟨v, h1, pv_var hr h2⟩⟩

/-- A computation on one part. -/
theorem one_agrees {mk : Expr → Expr} {f : Value → Except Err Value} {a a' : Expr}
    (hp : ∀ a s, simple a = true → pv I (mk a) s = (pv I a s).bind f)
    (hs : ∀ a, simple a = true → simple (mk a) = true) (hn : ∀ a, names (mk a) = names a)
    (ha : simple a = true) {s0 s : State} {r r1 : Rw} {h : List Stmt}
    (h1 : Agrees I n top tmp a s0 s r h a' r1) : Agrees I n top tmp (mk a) s0 s r h (mk a') r1 := by
  rcases h1 with ⟨err, err', s', g1, g2, g3⟩ | ⟨s', g1, g2, up, fit, g3, g4⟩
  · left
    exact ⟨err, err', s', by rw [hp _ _ ha, g1]; rfl, g2, g3⟩
  · right
    refine ⟨s', g1, g2, up, ⟨hs _ fit.1, by rw [hn]; exact fit.2⟩, g3, ?_⟩
    rw [hp _ _ ha, hp _ _ fit.1]
    rcases g4 with ⟨v, k1, k2⟩ | ⟨err, err', k1, k2⟩
    · rw [k1, k2]
      show (∃ w, f v = .ok w ∧ f v = .ok w) ∨ ∃ err err', f v = .error err ∧ f v = .error err'
      cases f v with
      | ok w => exact .inl ⟨w, rfl, rfl⟩
      | error x => exact .inr ⟨x, x, rfl, rfl⟩
    · rw [k1, k2]
      exact .inr ⟨err, err', rfl, rfl⟩

/-- A computation on two parts, the second hoisted after the first. -/
theorem two_agrees (hinj : ∀ i j, tmp i = tmp j → i = j) {mk : Expr → Expr → Expr}
    {f : Value → Value → Except Err Value} {a b a' b' : Expr}
    (hp : ∀ a b s, simple a = true → simple b = true →
      pv I (mk a b) s = (pv I a s).bind fun x => (pv I b s).bind fun y => f x y)
    (hs : ∀ a b, simple a = true → simple b = true → simple (mk a b) = true)
    (hn : ∀ a b, names (mk a b) = names a ++ names b) (ha : simple a = true) (hb : simple b = true)
    {s0 s : State} {r r1 r2 : Rw} {h h2 : List Stmt} (h1 : Agrees I n top tmp a s0 s r h a' r1)
    (h2' : ∀ s, Good I top tmp r1 s0 s → Agrees I n top tmp b s0 s r1 h2 b' r2) :
    Agrees I n top tmp (mk a b) s0 s r (h ++ h2) (mk a' b') r2 := by
  rcases h1 with ⟨err, err', s', g1, g2, g3⟩ | ⟨s', g1, g2, up, fit, g3, g4⟩
  · left
    exact ⟨err, err', s', by rw [hp _ _ _ ha hb, g1]; rfl, by rw [execs_append, g2]; rfl, g3⟩
  · have hx : execs I n (h ++ h2) s = execs I n h2 s' := by rw [execs_append, g1]; rfl
    unfold Agrees
    rw [hx, hp _ _ _ ha hb]
    rcases h2' s' g2 with ⟨err, err', s2, k1, k2, k3⟩ | ⟨s2, k1, k2, up2, fit2, k3, k4⟩
    · left
      rw [k1]
      cases pv I a s0 with
      | ok v => exact ⟨err, err', s2, rfl, k2, k3⟩
      | error x => exact ⟨x, err', s2, rfl, k2, k3⟩
    · right
      refine ⟨s2, k1, k2, Nat.le_trans up up2, ⟨hs _ _ fit.1 fit2.1, ?_⟩, ?_, ?_⟩
      · intro z hz
        rw [hn, List.mem_append] at hz
        rcases hz with hz | hz
        · exact (fit.mono up2).2 z hz
        · exact fit2.2 z hz
      · intro y hy
        rw [k3 y fun i hi => hy i (Nat.le_trans up hi)]
        exact g3 y hy
      · rw [hp _ _ _ fit.1 fit2.1]
        have ka : pv I a' s2 = pv I a' s' := fit.keep hinj k3
        rw [ka]
        rcases g4 with ⟨v, l1, l2⟩ | ⟨err, err', l1, l2⟩
        · rw [l1, l2]
          rcases k4 with ⟨w, m1, m2⟩ | ⟨err, err', m1, m2⟩
          · rw [m1, m2]
            show (∃ w', f v w = .ok w' ∧ f v w = .ok w') ∨
              ∃ err err', f v w = .error err ∧ f v w = .error err'
            cases f v w with
            | ok w => exact .inl ⟨w, rfl, rfl⟩
            | error x => exact .inr ⟨x, x, rfl, rfl⟩
          · rw [m1, m2]
            exact .inr ⟨err, err', rfl, rfl⟩
        · rw [l1, l2]
          exact .inr ⟨err, err', rfl, rfl⟩

/-- An expression that stays as it is. -/
theorem atom_agrees {e : Expr} (hs : simple e = true) (hn : ∀ z ∈ names e, ∀ i, z ≠ tmp i)
    {s0 s : State} {r : Rw} (hg : Good I top tmp r s0 s) : Agrees I n top tmp e s0 s r [] e r := by
  refine .inr ⟨s, by simp [execs], hg, Nat.le_refl _, ⟨hs, fun z hz => .inl (hn z hz)⟩,
    fun _ _ => rfl, ?_⟩
  rw [pv_congr (I := I) hs (s := s) (s' := s0) fun z hz => hg.same z (hn z hz)]
  cases pv I e s0 with
  | ok v => exact .inl ⟨v, rfl, rfl⟩
  | error x => exact .inr ⟨x, x, rfl, rfl⟩

/-- What rewriting an expression comes to. -/
def Rewrites (I : Inst) (n : Nat) (top : Bool) (tmp : Nat → Sym) (s0 : State) (e : Expr) (r : Rw)
    (p : Expr × Rw) : Prop :=
  ∃ h, p.2.hoisted = r.hoisted ++ h ∧
    ∀ s, Good I top tmp r s0 s → Agrees I n top tmp e s0 s r h p.1 p.2

/-- Rewriting a simple expression all of whose parts are evaluated. -/
theorem rewrite_agrees (hr : ∀ x v, I.reads x v = true) (hinj : ∀ i j, tmp i = tmp j → i = j)
    (counts : List Key) (s0 : State) : ∀ (e : Expr) (r : Rw), simple e = true → strict e = true →
    (∀ z ∈ names e, ∀ i, z ≠ tmp i) → Rewrites I n top tmp s0 e r (rewriteE tmp counts e r) := by
  intro e r hs ht hn
  cases hk : r.known e with
  | some y =>
    have : rewriteE tmp counts e r = (.var y, r) := by
      rw [rewriteE.eq_def, hk]
    rw [this]
    exact ⟨[], by simp, fun s hg => known_agrees hr hk hg⟩
  | none =>
    match e, hs, ht, hn with
    | .lit l, hs, ht, hn =>
      have : rewriteE tmp counts (.lit l) r = r.hoist tmp counts (keyOf (.lit l)) (.lit l) := by
        rw [rewriteE.eq_def, hk]
      rw [this]
      exact hoist_agrees hr hinj (h := []) (by simp) fun s hg => atom_agrees hs hn hg
    | .var x, hs, ht, hn =>
      have : rewriteE tmp counts (.var x) r = r.hoist tmp counts (keyOf (.var x)) (.var x) := by
        rw [rewriteE.eq_def, hk]
      rw [this]
      exact hoist_agrees hr hinj (h := []) (by simp) fun s hg => atom_agrees hs hn hg
    | .length a, hs, ht, hn =>
      have : rewriteE tmp counts (.length a) r = (rewriteE tmp counts a r).2.hoist tmp counts
          (keyOf (.length a)) (.length (rewriteE tmp counts a r).1) := by
        rw [rewriteE.eq_def, hk]
      rw [this]
      obtain ⟨h, e1, e2⟩ := rewrite_agrees hr hinj counts s0 a r hs ht hn
      exact hoist_agrees hr hinj e1 fun s hg =>
        one_agrees (mk := .length) (a := a) (fun a s ha => pv_length ha s) (fun _ h => h) (fun _ => rfl) hs (e2 s hg)
    | .not a, hs, ht, hn =>
      have : rewriteE tmp counts (.not a) r = (rewriteE tmp counts a r).2.hoist tmp counts
          (keyOf (.not a)) (.not (rewriteE tmp counts a r).1) := by
        rw [rewriteE.eq_def, hk]
      rw [this]
      obtain ⟨h, e1, e2⟩ := rewrite_agrees hr hinj counts s0 a r hs ht hn
      exact hoist_agrees hr hinj e1 fun s hg =>
        one_agrees (mk := .not) (a := a) (fun a s ha => pv_not ha s) (fun _ h => h) (fun _ => rfl) hs (e2 s hg)
    | .index a b, hs, ht, hn =>
      have : rewriteE tmp counts (.index a b) r =
          (rewriteE tmp counts b (rewriteE tmp counts a r).2).2.hoist tmp counts (keyOf (.index a b))
            (.index (rewriteE tmp counts a r).1 (rewriteE tmp counts b (rewriteE tmp counts a r).2).1) := by
        rw [rewriteE.eq_def, hk]
      rw [this]
      simp only [simple, strict, Bool.and_eq_true] at hs ht
      obtain ⟨h, e1, e2⟩ := rewrite_agrees hr hinj counts s0 a r hs.1 ht.1
        (fun z hz => hn z (by simp [names, hz]))
      obtain ⟨h2, e3, e4⟩ := rewrite_agrees hr hinj counts s0 b (rewriteE tmp counts a r).2 hs.2 ht.2
        (fun z hz => hn z (by simp [names, hz]))
      exact hoist_agrees hr hinj (h := h ++ h2) (by rw [e3, e1, List.append_assoc]) fun s hg =>
        two_agrees hinj (fun a b s ha hb => pv_index ha hb s)
          (fun a b ha hb => by simp [simple, ha, hb]) (fun _ _ => rfl) hs.1 hs.2 (e2 s hg) e4
    | .bin op a b, hs, ht, hn =>
      have : rewriteE tmp counts (.bin op a b) r =
          (rewriteE tmp counts b (rewriteE tmp counts a r).2).2.hoist tmp counts (keyOf (.bin op a b))
            (.bin op (rewriteE tmp counts a r).1 (rewriteE tmp counts b (rewriteE tmp counts a r).2).1) := by
        rw [rewriteE.eq_def, hk]
      rw [this]
      simp only [simple, strict, Bool.and_eq_true, bne_iff_ne, ne_eq] at hs ht
      obtain ⟨h, e1, e2⟩ := rewrite_agrees hr hinj counts s0 a r hs.1 ht.1.2
        (fun z hz => hn z (by simp [names, hz]))
      obtain ⟨h2, e3, e4⟩ := rewrite_agrees hr hinj counts s0 b (rewriteE tmp counts a r).2 hs.2 ht.2
        (fun z hz => hn z (by simp [names, hz]))
      exact hoist_agrees hr hinj (h := h ++ h2) (by rw [e3, e1, List.append_assoc]) fun s hg =>
        two_agrees hinj (fun a b s ha hb => pv_bin ha hb ht.1.1.1 ht.1.1.2 s)
          (fun a b ha hb => by simp [simple, ha, hb]) (fun _ _ => rfl) hs.1 hs.2 (e2 s hg) e4
    | .call _ _, hs, _, _ => simp [simple] at hs
    | .callv _ _, hs, _, _ => simp [simple] at hs
    | .list _, hs, _, _ => simp [simple] at hs
    | .closure _ _, hs, _, _ => simp [simple] at hs
termination_by e => e

/-- A `Let` whose value is rewritten, from a state without temporaries. -/
theorem hoist_let (hr : ∀ x v, I.reads x v = true) (hinj : ∀ i j, tmp i = tmp j → i = j) {e : Expr}
    {x : Sym} (b m : Bool) (k : Nat) (hs : simple e = true) (ht : strict e = true)
    (hn : ∀ z ∈ names e, ∀ i, z ≠ tmp i) {s : State} (hat : At top s) :
    (∀ v, (evalE I e s).1 = .ok v →
      ∃ s', execs I n (cseS tmp { counter := k } (.letS x b m e)).1 s = (.ok .cont, s') ∧
        s'.env.lookup x = some v ∧
        (∀ y, y ≠ x → (∀ i, y ≠ tmp i) → s'.env.lookup y = s.env.lookup y) ∧
        s'.out = s.out ∧ s'.funs = s.funs ∧ s'.clos = s.clos) ∧
    (∀ err, (evalE I e s).1 = .error err → ∃ err' s',
      execs I n (cseS tmp { counter := k } (.letS x b m e)).1 s = (.error err', s') ∧
        s'.out = s.out) := by
  have fin : ∀ (h : List Stmt) (e' : Expr) (r r' : Rw), Agrees I n top tmp e s s r h e' r' →
      (∀ v, (evalE I e s).1 = .ok v →
      ∃ s', execs I n (h ++ [.letS x b m e']) s = (.ok .cont, s') ∧
        s'.env.lookup x = some v ∧
        (∀ y, y ≠ x → (∀ i, y ≠ tmp i) → s'.env.lookup y = s.env.lookup y) ∧
        s'.out = s.out ∧ s'.funs = s.funs ∧ s'.clos = s.clos) ∧
      (∀ err, (evalE I e s).1 = .error err → ∃ err' s',
        execs I n (h ++ [.letS x b m e']) s = (.error err', s') ∧ s'.out = s.out) := by
    intro h e' r r' ha
    change (∀ v, pv I e s = .ok v → _) ∧ (∀ err, pv I e s = .error err → _)
    rcases ha with ⟨err, err', s', h1, h2, h3⟩ | ⟨s', h1, h2, up, fit, h3, h4⟩
    · rw [h1]
      exact ⟨(by intro v hv; cases hv), fun _ _ => ⟨err', s', by rw [execs_append, h2]; rfl, h3⟩⟩
    · have hx : execs I n (h ++ [.letS x b m e']) s = (evalE I e' s').bind (doDefine x) := by
        rw [execs_append, h1]
        show execs I n [_] s' = _
        rw [execs_single]
        simp only [exec]
      rw [eval_pv fit.1] at hx
      rcases h4 with ⟨v, h5, h6⟩ | ⟨err, err', h5, h6⟩
      · rw [h6] at hx
        rw [h5]
        refine ⟨?_, by intro err he; cases he⟩
        intro w hw
        cases hw
        obtain ⟨d1, d2, d3, d4⟩ := h2.at_.define x v
        refine ⟨_, hx, d2, ?_, h2.out, h2.funs, h2.clos⟩
        intro y hy hy'
        rw [(d4 y hy).1]
        exact h2.same y hy'
      · rw [h6] at hx
        rw [h5]
        exact ⟨(by intro v hv; cases hv), fun _ _ => ⟨err', s', hx, h2.out⟩⟩
  have hg : Good I top tmp { st := { counter := k } } s s :=
    ⟨hat, fun _ _ => rfl, rfl, rfl, rfl, by simp⟩
  by_cases hd : hasDupes e = true
  · obtain ⟨h, e1, e2⟩ := rewrite_agrees (I := I) (n := n) (top := top) hr hinj (occs e) s e
      { st := { counter := k } } hs ht hn
    have hc : (cseS tmp { counter := k } (.letS x b m e)).1 =
        h ++ [.letS x b m (rewriteE tmp (occs e) e { st := { counter := k } }).1] := by
      simp only [cseS, hd, if_true]
      rw [e1]; rfl
    rw [hc]
    exact fin _ _ _ _ (e2 s hg)
  · have hc : (cseS tmp { counter := k } (.letS x b m e)).1 = [] ++ [.letS x b m e] := by
      simp only [cseS, hd]
      have : crossE { counter := k } e = e := by
        unfold crossE Cse.lookup
        split
        · split <;> rfl
        · rfl
      simp [this]
    rw [hc]
    exact fin _ _ _ _ (atom_agrees hs hn hg)

end

end Verif.Lang.Gvn
