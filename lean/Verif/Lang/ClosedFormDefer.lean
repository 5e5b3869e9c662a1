import Verif.Lang.ClosedFormSound
/-! # The sum modulo a number, reduced every sixteen rounds -/
namespace Verif.Lang.CF

open Verif.Lang Verif.Lang.Symm

/-! ## A variable of a block -/

theorem define_upd (e : Env) {x y : Sym} (h : x ≠ y) (v w : Value) : (upd e x v).define y w = upd (e.define y w) x v := by
  have h' := h.symm
  unfold upd Env.define Env.assign
  cases hf : e.frames.isEmpty <;> cases hs : e.saves.isEmpty <;> cases hl : e.locals x <;> cases hm : e.mainBlock x <;>
    cases hg : e.globals x <;> simp [hf, hs, hl, hm, hg, put_comm _ h, VMap.put, h, h']

theorem pop_define (e : Env) (y : Sym) (w : Value) : (e.pushScope.define y w).popScope = e := by
  unfold Env.pushScope Env.define Env.popScope
  cases hf : e.frames.isEmpty <;> simp [hf, recordSave, undo, put_put, put_same]

theorem define_self (e : Env) (y : Sym) (w : Value) : (e.pushScope.define y w).lookup y = some w := by
  unfold Env.pushScope Env.define Env.lookup
  cases hf : e.frames.isEmpty <;> simp [hf, VMap.put]

theorem define_other (e : Env) {x y : Sym} (h : x ≠ y) (w : Value) : (e.pushScope.define y w).lookup x = e.lookup x := by
  unfold Env.pushScope Env.define Env.lookup
  cases hf : e.frames.isEmpty <;> simp [hf, VMap.put, h]

variable {P : Prims} {inv : Target → List Value → State → Res Value} {s : State} {acc ctr stop : Sym}

/-- The state in a block with a variable of its own. -/
def within (s : State) (stop : Sym) (w : Value) : State := { s with env := s.env.pushScope.define stop w }

theorem put2_within (h1 : acc ≠ stop) (h2 : ctr ≠ stop) (a c : Int) (w : Value) :
    put2 (within s stop w) acc ctr a c = within (put2 s acc ctr a c) stop w := by
  simp only [put2, within]
  rw [← define_upd _ h1, ← define_upd _ h2, upd_pushScope, upd_pushScope]

theorem pop_within (w : Value) : (within s stop w).withEnv (·.popScope) = s := by
  simp only [within, State.withEnv, pop_define]

theorem has_within (h1 : acc ≠ stop) (h2 : ctr ≠ stop) (h : Has s acc ctr) (w : Value) : Has (within s stop w) acc ctr := by
  obtain ⟨⟨v, hv⟩, u, hu⟩ := h
  exact ⟨⟨v, by simp only [within]; rw [define_other _ h1, hv]⟩, u, by simp only [within]; rw [define_other _ h2, hu]⟩

/-! ## Numbers -/

/-- One round of the sum. -/
def add (a c : Int) : Int := a + c
/-- One round of the reduced sum. -/
def addMod (p a c : Int) : Int := (a + c).tmod p

theorem rounds_split (f : Int → Int → Int) : ∀ (i j : Nat) (a c : Int), rounds f (i + j) a c = rounds f j (rounds f i a c) (c + i) := by
  intro i
  induction i with
  | zero => intro j a c; simp [rounds]
  | succ i ih =>
    intro j a c
    rw [show i + 1 + j = i + j + 1 by omega, rounds, rounds, ih]
    congr 1
    push_cast
    ring

theorem rounds_nonneg : ∀ (k : Nat) (a c : Int), 0 ≤ a → 0 ≤ c → 0 ≤ rounds add k a c := by
  intro k
  induction k with
  | zero => intro a c ha _; simpa [rounds] using ha
  | succ k ih => intro a c ha hc; exact ih _ _ (by unfold add; omega) (by omega)

theorem roundsMod_nonneg {p : Int} : ∀ (k : Nat) (a c : Int), 0 ≤ a → 0 ≤ c → 0 ≤ rounds (addMod p) k a c := by
  intro k
  induction k with
  | zero => intro a c ha _; simpa [rounds] using ha
  | succ k ih => intro a c ha hc; exact ih _ _ (Int.tmod_nonneg _ (by omega)) (by omega)

theorem rounds_congr {p : Int} : ∀ (k : Nat) (a b c : Int), 0 ≤ a → 0 ≤ b → 0 ≤ c → a % p = b % p →
    (rounds add k a c) % p = (rounds (addMod p) k b c) % p := by
  intro k
  induction k with
  | zero => intro a b c _ _ _ h; simpa [rounds] using h
  | succ k ih =>
    intro a b c ha hb hc h
    refine ih _ _ _ (by unfold add; omega) (Int.tmod_nonneg _ (by omega)) (by omega) ?_
    unfold add addMod
    rw [Int.tmod_eq_emod_of_nonneg (by omega), Int.emod_emod_of_dvd _ (dvd_refl p), Int.add_emod, h, ← Int.add_emod]

/-- Reducing once at the end is reducing in every round. -/
theorem rounds_mod {p : Int} (hp : 1 ≤ p) {k : Nat} (hk : 0 < k) {a c : Int} (ha : 0 ≤ a) (hc : 0 ≤ c) :
    (rounds add k a c).tmod p = rounds (addMod p) k a c := by
  obtain ⟨k, rfl⟩ : ∃ j, k = j + 1 := ⟨k - 1, by omega⟩
  have h := rounds_congr (p := p) (k + 1) a a c ha ha hc rfl
  rw [Int.tmod_eq_emod_of_nonneg (rounds_nonneg _ _ _ ha hc), h]
  have e := rounds_split (addMod p) k 1 a c
  have hn := roundsMod_nonneg (p := p) k a c ha hc
  rw [e]
  simp only [rounds, addMod]
  rw [Int.tmod_eq_emod_of_nonneg (by omega), Int.emod_emod_of_dvd _ (dvd_refl p)]

/-! ## Loops -/

theorem sum_ev {t : State} (hne : acc ≠ ctr) (hh : Has t acc ctr) (a c : Int) :
    evalE (over P inv) (.bin .add (.var acc) (.var ctr)) (put2 t acc ctr a c) = (.ok (.int (a + c)), put2 t acc ctr a c) :=
  ev2 (by decide) (ev_name (put2_acc hne hh a c)) (ev_name (put2_ctr hne hh a c)) (op_add P _ _)

theorem inc_ev {t : State} (hne : acc ≠ ctr) (hh : Has t acc ctr) (a c k : Int) :
    evalE (over P inv) (.bin .add (.var ctr) (int k)) (put2 t acc ctr a c) = (.ok (.int (c + k)), put2 t acc ctr a c) :=
  ev2 (by decide) (ev_name (put2_ctr hne hh a c)) ev_num (op_add P _ _)

theorem pair_run {n : Nat} {t : State} {v : Expr} {f : Int → Int → Int} (hne : acc ≠ ctr) (hh : Has t acc ctr)
    (hv : ∀ (u : State) a c, Has u acc ctr → evalE (over P inv) v (put2 u acc ctr a c) = (.ok (.int (f a c)), put2 u acc ctr a c)) (a c : Int) :
    inScope (execs (over P inv) n [.set acc v, .set ctr (.bin .add (.var ctr) (int 1))]) (put2 t acc ctr a c) =
      (.ok .cont, put2 t acc ctr (f a c) (c + 1)) := by
  apply block_put2
  have hh' := has_push hh
  rw [exs_cons (set_acc hne hh' (hv _ a c hh')), exs_one (set_ctr hne hh' (inc_ev hne hh' _ _ 1))]

/-- The original loop. -/
theorem mod_loop {n : Nat} {t : State} {op : BinOp} {incl : Bool} (hop : op = if incl then .le else .lt) (hne : acc ≠ ctr) (hh : Has t acc ctr)
    {v : Expr} {f : Int → Int → Int}
    (hv : ∀ (u : State) a c, Has u acc ctr → evalE (over P inv) v (put2 u acc ctr a c) = (.ok (.int (f a c)), put2 u acc ctr a c))
    {lim : Expr} {N : Int} (hl : Steady (over P inv) lim N t acc ctr) {a c : Int} (hn : (past N incl - c).toNat < n) :
    exec (over P inv) n (.whileS (.bin op (.var ctr) lim) [.set acc v, .set ctr (.bin .add (.var ctr) (int 1))]) (put2 t acc ctr a c) =
      (.ok .cont, put2 t acc ctr (rounds f (past N incl - c).toNat a c) (max c (past N incl))) := by
  apply ex_while
  exact counted (lo := c) (ok := fun _ => True) (fun a c => cond_run hop hne hh hl a c) (fun _ _ _ _ _ => trivial)
    (fun a c _ _ _ => pair_run hne hh hv a c) _ a c n trivial (le_refl _) rfl hn

/-- Sixteen rounds and a reduction. -/
theorem chunk_run {n : Nat} {t : State} {p : Int} (hp : 1 ≤ p) (hne : acc ≠ ctr) (h1 : acc ≠ stop) (h2 : ctr ≠ stop) (hh : Has t acc ctr)
    (hn : 16 < n) {a c : Int} (ha : 0 ≤ a) (hc : 0 ≤ c) :
    inScope (execs (over P inv) n [.letS stop false false (.bin .add (.var ctr) (int 16)),
      .whileS (.bin .lt (.var ctr) (.var stop)) [.set acc (.bin .add (.var acc) (.var ctr)), .set ctr (.bin .add (.var ctr) (int 1))],
      .set acc (.bin .mod (.var acc) (int p))]) (put2 t acc ctr a c) = (.ok .cont, put2 t acc ctr (rounds (addMod p) 16 a c) (c + 16)) := by
  have hh' := has_push hh
  have hw := has_within h1 h2 hh (.int (c + 16))
  have e1 : exec (over P inv) n (.letS stop false false (.bin .add (.var ctr) (int 16))) ((put2 t acc ctr a c).withEnv (·.pushScope)) =
      (.ok .cont, put2 (within t stop (.int (c + 16))) acc ctr a c) := by
    rw [put2_within h1 h2, ← put2_push]
    simp only [exec, inc_ev hne hh' a c 16, Res.bind, doDefine]
    rw [put2_push]
    rfl
  have e2 : exec (over P inv) n (.whileS (.bin .lt (.var ctr) (.var stop)) [.set acc (.bin .add (.var acc) (.var ctr)), .set ctr (.bin .add (.var ctr) (int 1))])
      (put2 (within t stop (.int (c + 16))) acc ctr a c) = (.ok .cont, put2 (within t stop (.int (c + 16))) acc ctr (rounds add 16 a c) (c + 16)) := by
    apply ex_while
    have hs : ∀ a' c', (put2 (within t stop (.int (c + 16))) acc ctr a' c').env.lookup stop = some (.int (c + 16)) := by
      intro a' c'
      rw [put2_other h1.symm h2.symm]
      exact define_self _ _ _
    have := counted (P := P) (s := within t stop (.int (c + 16))) (acc := acc) (ctr := ctr) (fA := add) (N := c + 16) (lo := c) (ok := fun _ => True)
      (fc := evalE (over P inv) (.bin .lt (.var ctr) (.var stop)))
      (fb := inScope (execs (over P inv) n [.set acc (.bin .add (.var acc) (.var ctr)), .set ctr (.bin .add (.var ctr) (int 1))]))
      (fun a' c' => ev2 (by decide) (ev_name (put2_ctr hne hw a' c')) (ev_name (hs a' c')) (op_lt P _ _)) (fun _ _ _ _ _ => trivial)
      (fun a' c' _ _ _ => pair_run hne hw (fun u a c hu => sum_ev hne hu a c) a' c') 16 a c n trivial (le_refl _) (by omega) hn
    rw [max_eq_right (by omega)] at this
    exact this
  have e3 := set_acc (P := P) (inv := inv) (n := n) (e := .bin .mod (.var acc) (int p)) hne hw (a := rounds add 16 a c) (c := c + 16)
    (ev2 (by decide) (ev_name (put2_acc hne hw _ _)) ev_num (op_mod P _ hp))
  simp only [inScope]
  rw [exs_cons e1, exs_cons e2, exs_one e3, rounds_mod hp (by decide) ha hc]
  simp only [Res.bind]
  rw [put2_within h1 h2, pop_within]

/-- The chunks. -/
theorem chunks_run {fc : State → Res Value} {fb : State → Res Flow} {t : State} {p M lo : Int} (hlo : 0 ≤ lo)
    (hcond : ∀ a c, fc (put2 t acc ctr a c) = (.ok (.bool (decide (c + 15 < M))), put2 t acc ctr a c))
    (hb : ∀ a c, 0 ≤ a → lo ≤ c → c + 15 < M → fb (put2 t acc ctr a c) = (.ok .cont, put2 t acc ctr (rounds (addMod p) 16 a c) (c + 16))) :
    ∀ (j : Nat) (a c : Int) (m : Nat), 0 ≤ a → lo ≤ c → (M - c).toNat / 16 = j → j < m →
      whileLoop P fc fb m (put2 t acc ctr a c) = (.ok .cont, put2 t acc ctr (rounds (addMod p) (16 * j) a c) (c + 16 * j)) := by
  intro j
  induction j with
  | zero =>
    intro a c m ha hc hj hm
    obtain ⟨m, rfl⟩ : ∃ m', m = m' + 1 := ⟨m - 1, by omega⟩
    have h1 : ¬ c + 15 < M := by omega
    simp [whileLoop, whileStep, hcond, Res.bind, h1, truthy, rounds]
  | succ j ih =>
    intro a c m ha hc hj hm
    obtain ⟨m, rfl⟩ : ∃ m', m = m' + 1 := ⟨m - 1, by omega⟩
    have h1 : c + 15 < M := by omega
    have h := ih (rounds (addMod p) 16 a c) (c + 16) m (roundsMod_nonneg _ _ _ ha (by omega)) (by omega) (by omega) (by omega)
    simp only [whileLoop, whileStep, hcond, Res.bind, h1, decide_true, truthy, if_true, hb a c ha hc h1, loopNext, h]
    rw [show 16 * (j + 1) = 16 + 16 * j by omega, rounds_split]
    congr 2
    push_cast
    ring

theorem modSum_spec {v : Expr} {p : Int} (h : modSum acc ctr v = some p) : 1 ≤ p ∧ v = .bin .mod (.bin .add (.var acc) (.var ctr)) (int p) := by
  unfold modSum at h
  split at h
  · split_ifs at h with hc
    obtain ⟨h1, rfl, rfl⟩ := hc
    cases h
    exact ⟨h1, rfl⟩
  · cases h

theorem defer_sound {n : Nat} {v inc : Expr} {op : BinOp} {lim : Expr} {before rep : List Stmt} {N : Int} (h1 : acc ≠ stop) (h2 : ctr ≠ stop)
    (h : deferMod stop (.bin op (.var ctr) lim) [.set acc v, .set ctr inc] before = some rep)
    (hinit : ∀ x k, findInit before x = some k → s.env.lookup x = some (.int k)) (hl : Steady (over P inv) lim N s acc ctr)
    (hn : ∀ k, s.env.lookup ctr = some (.int k) → (N + 1 - k).toNat < n) :
    execs (over P inv) n rep s = exec (over P inv) n (.whileS (.bin op (.var ctr) lim) [.set acc v, .set ctr inc]) s := by
  simp only [deferMod, condCounter] at h
  split at h
  swap
  · cases h
  rename_i lim' incl acc' v' g1 g2
  obtain ⟨rfl, hop⟩ := limit_spec g1
  have g3 : acc ≠ ctr ∧ isPlusOne inc ctr = true ∧ acc' = acc ∧ v' = v := by
    simp only [deferBody] at g2
    split_ifs at g2 <;> simp_all
  obtain ⟨hne, hi, rfl, rfl⟩ := g3
  obtain rfl := plusOne_eq hi
  split at h
  swap
  · cases h
  rename_i p init start k1 k2 k3
  obtain ⟨hp, rfl⟩ := modSum_spec k1
  obtain ⟨hnn, h⟩ := of_not h
  simp only [Option.some.injEq] at h
  subst h
  have v1 := hinit _ _ k2
  have v2 := hinit _ _ k3
  have hh : Has s acc' ctr := ⟨⟨_, v1⟩, _, v2⟩
  have hs : put2 s acc' ctr init start = s := put2_id v1 v2
  have hn' : (past N incl - start).toNat < n := by
    have := hn start v2
    unfold past
    split_ifs <;> omega
  have hv : ∀ (u : State) a c, Has u acc' ctr → evalE (over P inv) (.bin .mod (.bin .add (.var acc') (.var ctr)) (int p)) (put2 u acc' ctr a c) =
      (.ok (.int (addMod p a c)), put2 u acc' ctr a c) :=
    fun u a c hu => ev2 (by decide) (sum_ev hne hu a c) ev_num (op_mod P _ hp)
  have push := steady_push hl
  have hh' := has_push hh
  have whole := mod_loop (n := n) hop hne hh hv hl (a := init) hn'
  have again := mod_loop (n := n) hop hne hh' hv push (a := init) hn'
  rw [hs] at whole
  rw [whole, deferred]
  apply exs_one
  rw [ex_if (ev_and (ev2 (op := .ge) (by decide) (steady_self hl) ev_num (op_ge P _ _)) (ev2 (op := .le) (by decide) (steady_self hl) ev_num (op_le P _ _)))]
  generalize (decide (N ≥ _) && decide (N ≤ _)) = b
  cases b
  rotate_left
  · simp only [if_true]
    have hf : inScope (execs (over P inv) n [.whileS (.bin (if incl = true then .le else .lt) (.var ctr) (.bin .sub lim' (int 15)))
          [.letS stop false false (.bin .add (.var ctr) (int 16)),
            .whileS (.bin .lt (.var ctr) (.var stop)) [.set acc' (.bin .add (.var acc') (.var ctr)), .set ctr (.bin .add (.var ctr) (int 1))],
            .set acc' (.bin .mod (.var acc') (int p))],
        .whileS (.bin op (.var ctr) lim') [.set acc' (.bin .mod (.bin .add (.var acc') (.var ctr)) (int p)), .set ctr (.bin .add (.var ctr) (int 1))]])
        (put2 s acc' ctr init start) = (.ok .cont, put2 s acc' ctr (rounds (addMod p) (past N incl - start).toNat init start) (max start (past N incl))) := by
      apply block_put2
      have c1 := ex_while (P := P) (inv := inv) (n := n) (chunks_run (P := P) (t := s.withEnv (·.pushScope)) (acc := acc') (ctr := ctr) (p := p) (M := past N incl) (lo := start) (by omega)
        (fc := evalE (over P inv) (.bin (if incl = true then .le else .lt) (.var ctr) (.bin .sub lim' (int 15))))
        (fb := inScope (execs (over P inv) n [.letS stop false false (.bin .add (.var ctr) (int 16)),
            .whileS (.bin .lt (.var ctr) (.var stop)) [.set acc' (.bin .add (.var acc') (.var ctr)), .set ctr (.bin .add (.var ctr) (int 1))],
            .set acc' (.bin .mod (.var acc') (int p))]))
        (by
          intro a c
          have hsub := ev2 (P := P) (inv := inv) (op := .sub) (by decide) (steady_put2 push a c) (ev_num (k := 15)) (op_sub P N 15)
          cases incl
          · have := ev2 (P := P) (inv := inv) (op := .lt) (by decide) (ev_name (put2_ctr hne hh' a c)) hsub (op_lt P c (N - 15))
            simp only [Bool.false_eq_true, if_false]
            rw [this]
            refine congrArg (fun b => (Except.ok (Value.bool b), put2 (s.withEnv (·.pushScope)) acc' ctr a c)) ?_
            rw [decide_eq_decide]
            simp only [past, Bool.false_eq_true, if_false]
            omega
          · have := ev2 (P := P) (inv := inv) (op := .le) (by decide) (ev_name (put2_ctr hne hh' a c)) hsub (op_le P c (N - 15))
            simp only [if_true]
            rw [this]
            refine congrArg (fun b => (Except.ok (Value.bool b), put2 (s.withEnv (·.pushScope)) acc' ctr a c)) ?_
            rw [decide_eq_decide]
            simp only [past, if_true]
            omega)
        (fun a c ha hc hlt => chunk_run hp hne h1 h2 hh' (by omega) ha (by omega))
        ((past N incl - start).toNat / 16) init start n (by omega) (le_refl _) rfl (by omega))
      rw [exs_cons c1]
      have c2 := mod_loop (n := n) hop hne hh' hv push (a := rounds (addMod p) (16 * ((past N incl - start).toNat / 16)) init start)
        (c := start + 16 * ((past N incl - start).toNat / 16 : Nat)) (by omega)
      rw [exs_one c2]
      have k1 := Nat.div_add_mod (past N incl - start).toNat 16
      generalize (past N incl - start).toNat / 16 = j at k1
      have e1 : (past N incl - (start + 16 * ((j : Nat) : Int))).toNat = (past N incl - start).toNat - 16 * j := by omega
      have e2 : (past N incl - start).toNat = 16 * j + ((past N incl - start).toNat - 16 * j) := by omega
      rw [e1]
      conv_rhs => rw [e2, rounds_split]
      rw [show ((16 * j : Nat) : Int) = 16 * (j : Int) by push_cast; ring, show max (start + 16 * (j : Int)) (past N incl) = max start (past N incl) by omega]
    rw [hs] at hf
    exact hf
  · simp only [Bool.false_eq_true, if_false]
    have hf : inScope (execs (over P inv) n [.whileS (.bin op (.var ctr) lim') [.set acc' (.bin .mod (.bin .add (.var acc') (.var ctr)) (int p)),
        .set ctr (.bin .add (.var ctr) (int 1))]]) (put2 s acc' ctr init start) =
        (.ok .cont, put2 s acc' ctr (rounds (addMod p) (past N incl - start).toNat init start) (max start (past N incl))) := by
      apply block_put2
      exact exs_one again
    rw [hs] at hf
    exact hf

end Verif.Lang.CF
