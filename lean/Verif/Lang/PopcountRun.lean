import Verif.Lang.PopcountLeaf
import Verif.Lang.ClosedFormRec
/-! # Running the last level of a bit-mask search -/
namespace Verif.Lang.Pop
open Verif.Lang Verif.Lang.Symm

variable {P : Prims} {inv : Target → List Value → State → Res Value} {s : State}

theorem splice_spec {x : Sym} {fast : Stmt} : ∀ {l r : List Stmt}, spliceAfter x fast l = some r →
    ∃ a b t m e, l = a ++ .letS x t m e :: b ∧ r = a ++ .letS x t m e :: fast :: b ∧ ∀ st ∈ b, ∀ t m e, st ≠ .letS x t m e := by
  intro l
  induction l with
  | nil => intro r h; simp [spliceAfter] at h
  | cons st l ih =>
    intro r h
    rw [spliceAfter] at h
    cases hr : spliceAfter x fast l with
    | some r' =>
      rw [hr] at h
      cases h
      obtain ⟨a, b, t, m, e, rfl, rfl, hb⟩ := ih hr
      exact ⟨st :: a, b, t, m, e, rfl, rfl, hb⟩
    | none =>
      rw [hr] at h
      simp only at h
      split_ifs at h with hd
      cases h
      unfold definesX at hd
      split at hd
      swap
      · cases hd
      rename_i y t m e
      simp only [beq_iff_eq] at hd
      subst hd
      refine ⟨[], l, t, m, e, rfl, rfl, ?_⟩
      have none_of : ∀ {l : List Stmt}, spliceAfter y fast l = none → ∀ st ∈ l, ∀ t m e, st ≠ .letS y t m e := by
        intro l
        induction l with
        | nil => simp
        | cons st l ih2 =>
          intro h st' hst t m e he
          rw [spliceAfter] at h
          cases hr : spliceAfter y fast l with
          | some r' => rw [hr] at h; cases h
          | none =>
            rw [hr] at h
            rcases List.mem_cons.1 hst with rfl | hst
            · subst he
              simp [definesX] at h
            · exact ih2 hr st' hst t m e he
      exact none_of hr

theorem ident_eq {e : Expr} {x : Sym} (h : asIdent e = some x) : e = .var x := by
  unfold asIdent at h
  split at h
  · cases h; rfl
  · cases h

theorem int_eq {e : Expr} {n : Int} (h : asInt e = some n) : e = .lit (.num n) := by
  unfold asInt at h
  split at h
  · cases h; rfl
  · cases h

theorem base_eq {st : Stmt} {k lim : Sym} {c : Int} (h : matchBase st = some (k, lim, c)) :
    st = .ifS (.bin .eq (.var k) (.var lim)) [.ret (some (.lit (.num c)))] [] := by
  unfold matchBase at h
  split at h
  swap
  · cases h
  split at h
  swap
  · cases h
  rename_i h1 h2 h3
  cases h
  rw [ident_eq h1, ident_eq h2, int_eq h3]

theorem find_spec {f k : Sym} : ∀ {l : List Stmt} {i j : Nat} {x acc : Sym}, findLoop f k i l = some (j, x, acc) →
    ∃ a b c body, l = a ++ .whileS c body :: b ∧ j = i + a.length ∧ loopX c = some x ∧ loopBody body x f k = some acc := by
  intro l
  induction l with
  | nil => intro i j x acc h; simp [findLoop] at h
  | cons st l ih =>
    intro i j x acc h
    have other : findLoop f k (i + 1) l = some (j, x, acc) → ∃ a b c body, st :: l = a ++ .whileS c body :: b ∧ j = i + a.length ∧
        loopX c = some x ∧ loopBody body x f k = some acc := by
      intro h
      obtain ⟨a, b, c, body, rfl, rfl, h1, h2⟩ := ih h
      exact ⟨st :: a, b, c, body, rfl, by simp; omega, h1, h2⟩
    unfold findLoop at h
    split at h
    · cases h
    · rename_i c b rest he
      cases he
      split at h
      · rename_i r hr
        cases h
        obtain ⟨x', hx, hb⟩ := Option.bind_eq_some_iff.1 hr
        obtain ⟨acc', hacc, he⟩ := Option.map_eq_some_iff.1 hb
        cases he
        exact ⟨[], _, _, _, rfl, by simp, hx, hacc⟩
      · exact other h
    · rename_i he
      cases he
      exact other h

theorem loopX_eq {c : Expr} {x : Sym} (h : loopX c = some x) : c = .bin .ne (.var x) (.lit (.num 0)) := by
  unfold loopX at h
  split at h
  swap
  · cases h
  split_ifs at h with h0
  rw [ident_eq h, int_eq h0]

theorem neg_eval (hf : s.env.frames ≠ []) {e : Expr} {x : Sym} (h : isNegOf e x = true) {L sv} {X : BitVec 64} (hx : L x = some (V X)) (hm : X.msb = false) :
    evalE (over P inv) e (withLocals s L sv) = (.ok (V (-X)), withLocals s L sv) := by
  unfold isNegOf at h
  split at h
  swap
  · cases h
  simp only [Bool.and_eq_true, beq_iff_eq] at h
  rw [int_eq h.1, ident_eq h.2]
  exact ev_bin (by decide) ev_int (ev_var hf hx) (op_neg P X hm)

theorem low_eval (hf : s.env.frames ≠ []) {e : Expr} {x : Sym} (h : isLowestBit e x = true) {L sv} {X : BitVec 64} (hx : L x = some (V X)) (hm : X.msb = false) :
    evalE (over P inv) e (withLocals s L sv) = (.ok (V (X &&& -X)), withLocals s L sv) := by
  unfold isLowestBit at h
  split at h
  swap
  · cases h
  simp only [Bool.or_eq_true, Bool.and_eq_true, beq_iff_eq] at h
  rcases h with ⟨h1, h2⟩ | ⟨h1, h2⟩
  · rw [ident_eq h1]
    exact ev_bin (by decide) (ev_var hf hx) (neg_eval hf h2 hx hm) (op_and P _ _)
  · rw [ident_eq h1, BitVec.and_comm]
    exact ev_bin (by decide) (neg_eval hf h2 hx hm) (ev_var hf hx) (op_and P _ _)

theorem xor_eval (hf : s.env.frames ≠ []) {e : Expr} {x bit : Sym} (h : isXorOf e x bit = true) {L sv} {X B : BitVec 64} (hx : L x = some (V X))
    (hb : L bit = some (V B)) : evalE (over P inv) e (withLocals s L sv) = (.ok (V (X ^^^ B)), withLocals s L sv) := by
  unfold isXorOf at h
  split at h
  swap
  · cases h
  simp only [Bool.or_eq_true, Bool.and_eq_true, beq_iff_eq] at h
  rcases h with ⟨h1, h2⟩ | ⟨h1, h2⟩
  · rw [ident_eq h1, ident_eq h2]
    exact ev_bin (by decide) (ev_var hf hx) (ev_var hf hb) (op_xor P _ _)
  · rw [ident_eq h1, ident_eq h2, BitVec.xor_comm]
    exact ev_bin (by decide) (ev_var hf hb) (ev_var hf hx) (op_xor P _ _)

/-- The body of a recognised loop. -/
theorem body_spec {body : List Stmt} {x f k acc : Sym} (h : loopBody body x f k = some acc) :
    ∃ bit t m v w args u, body = [.letS bit t m v, .set x w, .set acc u] ∧ isLowestBit v x = true ∧ isXorOf w x bit = true ∧
      args.any (isKPlusOne k) = true ∧ (u = .bin .add (.var acc) (.call f args) ∨ u = .bin .add (.call f args) (.var acc)) := by
  unfold loopBody at h
  split at h
  swap
  · cases h
  rename_i bit t m v t' w acc' l r
  split_ifs at h with hc
  cases h
  simp only [Bool.and_eq_true, Bool.or_eq_true, beq_iff_eq] at hc
  obtain ⟨⟨h1, rfl, h2⟩, h3⟩ := hc
  have call : ∀ e, isSelfStep e f k = true → ∃ args, e = .call f args ∧ args.any (isKPlusOne k) = true := by
    intro e he
    unfold isSelfStep at he
    split at he
    · simp only [Bool.and_eq_true, beq_iff_eq] at he
      obtain ⟨rfl, he⟩ := he
      exact ⟨_, rfl, he⟩
    · cases he
  rcases h3 with ⟨ha, hs⟩ | ⟨ha, hs⟩
  · obtain ⟨args, rfl, hargs⟩ := call _ hs
    exact ⟨bit, t, m, v, w, args, _, rfl, h1, h2, hargs, Or.inl (by rw [ident_eq ha])⟩
  · obtain ⟨args, rfl, hargs⟩ := call _ hs
    exact ⟨bit, t, m, v, w, args, _, rfl, h1, h2, hargs, Or.inr (by rw [ident_eq ha])⟩

/-- A recognised loop adds the number the call gives as often as the set has members. -/
theorem leaf_loop (hf : s.env.frames ≠ []) {x bit acc : Sym} (hxb : x ≠ bit) (hxa : x ≠ acc) (hba : bit ≠ acc) {call v w u : Expr} {t mu : Bool}
    (hv : isLowestBit v x = true) (hw : isXorOf w x bit = true) (hu : u = .bin .add (.var acc) call ∨ u = .bin .add call (.var acc))
    (c : Int) (base : VMap) (n : Nat) (dom : Nat → Prop)
    (hcall : ∀ L sv k, dom k → (∀ y, y ≠ x → y ≠ acc → y ≠ bit → L y = base y) → L bit = some (V (BitVec.twoPow 64 k)) →
      evalE (over P inv) call (withLocals s L sv) = (.ok (.int c), withLocals s L sv)) :
    ∀ (ks : List Nat) (X : BitVec 64) (a : Int) (m : Nat) (L : VMap) sv, places X = ks → (∀ k ∈ ks, dom k ∧ k < 63) →
      ks.length < m → (∀ y, y ≠ x → y ≠ acc → y ≠ bit → L y = base y) → L x = some (V X) → L acc = some (.int a) →
      ∃ L', whileLoop P (evalE (over P inv) (.bin .ne (.var x) (intLit 0)))
          (inScope (execs (over P inv) n [.letS bit t mu v, .set x w, .set acc u])) m (withLocals s L sv) = (.ok .cont, withLocals s L' sv) ∧
        L' acc = some (.int (a + c * ks.length)) := by
  intro ks
  induction ks with
  | nil =>
    intro X a m L sv hp _ hm hL hx ha
    have h0 := places_nil.1 hp
    subst h0
    obtain ⟨m, rfl⟩ := Nat.exists_eq_succ_of_ne_zero (show m ≠ 0 by simp at hm; omega)
    have hc := ev_bin (P := P) (inv := inv) (op := .ne) (by decide) (ev_var hf (sv := sv) hx) (ev_int (k := 0))
      (v := .bool false) (by simp [applyOp, V, valEq])
    refine ⟨L, ?_, by simpa using ha⟩
    simp [whileLoop, whileStep, hc, Res.bind, truthy]
  | cons k ks ih =>
    intro X a m L sv hp hd hm hL hx ha
    obtain ⟨m, rfl⟩ := Nat.exists_eq_succ_of_ne_zero (show m ≠ 0 by omega)
    obtain ⟨hlow, hrest⟩ := places_cons hp
    have hne : X ≠ 0#64 := by
      intro e
      rw [places_nil.2 e] at hp
      cases hp
    have hne' : X.toInt ≠ 0 := by
      intro e
      exact hne (BitVec.toInt_inj.1 (by simpa using e))
    have hmsb : X.msb = false := by
      rw [BitVec.msb_eq_getLsbD_last]
      by_contra hb
      have := mem_places.2 (by simpa using hb : X.getLsbD (64 - 1) = true)
      rw [hp] at this
      have := (hd _ this).2
      omega
    have hc := ev_bin (P := P) (inv := inv) (op := .ne) (by decide) (ev_var hf (sv := sv) hx) (ev_int (k := 0))
      (v := .bool true) (by simp [applyOp, V, valEq, hne'])
    let L1 := L.put bit (some (V (BitVec.twoPow 64 k)))
    let L2 := L1.put x (some (V (X ^^^ BitVec.twoPow 64 k)))
    let L3 := L2.put acc (some (.int (a + c)))
    have e1 := ex_let (P := P) (inv := inv) hf (L := L) (sv := [] :: sv) (x := bit) (t := t) (m := mu) (n := n) (low_eval hf hv hx hmsb)
    rw [hlow] at e1
    have e2 := ex_set (P := P) (inv := inv) hf (L := L1) (sv := recordSave bit (L bit) ([] :: sv)) (x := x) (n := n)
      (by simp [L1, put_other _ _ hxb, hx])
      (xor_eval hf hw (X := X) (by simp [L1, put_other _ _ hxb, hx]) (B := BitVec.twoPow 64 k) (by simp [L1, put_self]))
    have hacc2 : L2 acc = some (.int a) := by simp [L2, L1, put_other _ _ hxa.symm, put_other _ _ hba.symm, ha]
    have hcl := hcall L2 (recordSave bit (L bit) ([] :: sv)) k (hd k (by simp)).1 (by
          intro y h1 h2 h3
          simp [L2, L1, put_other _ _ h1, put_other _ _ h3, hL y h1 h2 h3]) (by simp [L2, put_other _ _ hxb.symm, L1, put_self])
    have hsum : evalE (over P inv) u (withLocals s L2 (recordSave bit (L bit) ([] :: sv))) =
        (.ok (.int (a + c)), withLocals s L2 (recordSave bit (L bit) ([] :: sv))) := by
      rcases hu with rfl | rfl
      · exact ev_bin (by decide) (ev_var hf hacc2) hcl (by simp [applyOp, addVals])
      · exact ev_bin (by decide) hcl (ev_var hf hacc2) (by simp [applyOp, addVals, Int.add_comm])
    have e3 := ex_set (P := P) (inv := inv) hf (L := L2) (sv := recordSave bit (L bit) ([] :: sv)) (x := acc) (n := n)
      (by simp [hacc2]) hsum
    have eb : execs (over P inv) n [.letS bit t mu v, .set x w, .set acc u] (withLocals s L ([] :: sv)) =
        (.ok .cont, withLocals s L3 ([(bit, L bit)] :: sv)) := by
      rw [exs_cons e1, exs_cons e2, exs_cons e3]
      simp [execs, recordSave, L3]
    have es := in_scope hf eb
    have hud : undo L3 [(bit, L bit)] = L3.put bit (L bit) := rfl
    obtain ⟨L', hw', hacc'⟩ := ih (X ^^^ BitVec.twoPow 64 k) (a + c) m (L3.put bit (L bit)) sv hrest
      (fun j hj => hd j (by simp [hj])) (by simp at hm; omega)
      (by
        intro y h1 h2 h3
        simp [L3, L2, L1, put_other _ _ h1, put_other _ _ h2, put_other _ _ h3, hL y h1 h2 h3])
      (by simp [put_other _ _ hxb, L3, put_other _ _ hxa, L2, put_self])
      (by simp [put_other _ _ hba.symm, L3, put_self])
    refine ⟨L', ?_, by rw [hacc']; simp; ring⟩
    rw [whileLoop, whileStep, hc]
    simp only [Res.bind, truthy, if_true, es, loopNext, hud, hw']

/-- The new test, when it fails. -/
theorem fast_skip (hf : s.env.frames ≠ []) {k lim x c : Sym} {cnst a b : Int} {L sv n} (hk : L k = some (.int a)) (hl : L lim = some (.int b)) (h : a + 1 ≠ b) :
    exec (over P inv) n (fastPath k lim cnst x c) (withLocals s L sv) = (.ok .cont, withLocals s L sv) := by
  unfold fastPath
  apply ex_if_false hf
  refine ev_bin (by decide) (ev_var hf hk) (ev_bin (op := .sub) (by decide) (ev_var hf hl) (ev_int (k := 1)) (CF.op_sub P _ _)) ?_
  simp only [applyOp, valEq, beq_eq_decide]
  rw [decide_eq_false (by omega)]

/-- The new test, when it holds. -/
theorem fast_take (hf : s.env.frames ≠ []) {k lim x c : Sym} {cnst a b : Int} {L sv n} (hk : L k = some (.int a)) (hl : L lim = some (.int b)) (h : a + 1 = b)
    {X : BitVec 64} (hx : L x = some (V X)) {g : List Value → Except Err Value} (hc : P.builtin c = some g) (hg : g [V X] = .ok (.int (places X).length)) :
    exec (over P inv) n (fastPath k lim cnst x c) (withLocals s L sv) = (.ok (.ret (.int (cnst * (places X).length))), withLocals s L sv) := by
  have ones : ∀ sv, evalE (over P inv) (.call c [.var x]) (withLocals s L sv) = (.ok (.int (places X).length), withLocals s L sv) := by
    intro sv
    have h1 := evs_cons (ev_var (P := P) (inv := inv) hf (sv := sv) hx) evs_nil
    simp only [evalE, evCall]
    simp only [over] at h1 ⊢
    simp [hc, h1, Res.bind, hg, lift]
  have hret : ∀ sv, evalE (over P inv) (if cnst = 1 then .call c [.var x] else .bin .mul (.lit (.num cnst)) (.call c [.var x])) (withLocals s L sv) =
      (.ok (.int (cnst * (places X).length)), withLocals s L sv) := by
    intro sv
    split_ifs with h1
    · rw [h1, one_mul]
      exact ones sv
    · exact ev_bin (by decide) (ev_int (k := cnst)) (ones sv) (CF.op_mul P _ _)
  have hcond : evalE (over P inv) (.bin .eq (.var k) (.bin .sub (.var lim) (.lit (.num 1)))) (withLocals s L sv) = (.ok (.bool true), withLocals s L sv) := by
    refine ev_bin (by decide) (ev_var hf hk) (ev_bin (op := .sub) (by decide) (ev_var hf hl) (ev_int (k := 1)) (CF.op_sub P _ _)) ?_
    simp only [applyOp, valEq, beq_eq_decide]
    rw [decide_eq_true (by omega)]
  have h1 := in_scope hf (f := execs (over P inv) n [.ret (some (if cnst = 1 then .call c [.var x] else .bin .mul (.lit (.num cnst)) (.call c [.var x])))])
    (L := L) (sv := sv) (sc := []) (exs_ret (ex_ret (hret _)))
  unfold fastPath
  simp only [exec, hcond, Res.bind]
  simpa [truthy, undo] using h1

/-! ## The whole function -/

theorem bound_other : ∀ (ps : List Sym) (vs : List Value) (L : VMap) {p : Sym}, p ∉ ps → bound ps vs L p = L p := by
  intro ps
  induction ps with
  | nil => intros; simp [bound]
  | cons q ps ih =>
    intro vs L p h
    cases vs with
    | nil => simp [bound]
    | cons v vs =>
      simp only [List.mem_cons, not_or] at h
      rw [bound, ih vs _ h.2, put_other _ _ h.1]

theorem bound_get : ∀ (ps : List Sym) (vs : List Value) (L : VMap) {i : Nat} {p : Sym} {v : Value}, ps.Nodup → ps[i]? = some p → vs[i]? = some v →
    bound ps vs L p = some v := by
  intro ps
  induction ps with
  | nil => intro vs L i p v _ h; simp at h
  | cons q ps ih =>
    intro vs L i p v hn hp hv
    rw [List.nodup_cons] at hn
    cases vs with
    | nil => simp at hv
    | cons w vs =>
      cases i with
      | zero =>
        simp only [List.getElem?_cons_zero, Option.some.injEq] at hp hv
        subst hp hv
        rw [bound, bound_other _ _ _ hn.1, put_self]
      | succ i => exact ih vs _ hn.2 (by simpa using hp) (by simpa using hv)

theorem evs_get {st : State} : ∀ (args : List Expr), (∀ e ∈ args, ∃ v, evalE (over P inv) e st = (.ok v, st)) →
    ∃ vs, evalEs (over P inv) args st = (.ok vs, st) ∧ ∀ (i : Nat) e, args[i]? = some e → ∃ v, vs[i]? = some v ∧ evalE (over P inv) e st = (.ok v, st) := by
  intro args
  induction args with
  | nil => intro _; exact ⟨[], evs_nil, by simp⟩
  | cons e args ih =>
    intro h
    obtain ⟨v, hv⟩ := h e (by simp)
    obtain ⟨vs, hvs, hg⟩ := ih fun e he => h e (by simp [he])
    refine ⟨v :: vs, evs_cons hv hvs, ?_⟩
    intro i e' he
    cases i with
    | zero =>
      simp only [List.getElem?_cons_zero, Option.some.injEq] at he
      subst he
      exact ⟨v, rfl, hv⟩
    | succ i => exact hg i e' (by simpa using he)

/-- A call at the limit is the base case. -/
theorem child_run {ps : List Sym} {rest : List Stmt} {k lim : Sym} {c b : Int} {vs : List Value} {i j M : Nat} (hn : ps.Nodup) (hk : ps[i]? = some k)
    (hl : ps[j]? = some lim) (vk : vs[i]? = some (.int b)) (vl : vs[j]? = some (.int b)) (st : State) :
    invokeN P (applyOp P) (fun _ _ => true) (M + 1)
      (.fn ⟨ps, .ifS (.bin .eq (.var k) (.var lim)) [.ret (some (.lit (.num c)))] [] :: rest⟩) vs st = (.ok (.int c), st) := by
  have hf := inside_frames st
  show invokeFun (over P (invokeN P (applyOp P) (fun _ _ => true) M)) M _ _ st = _
  apply call_returns (L' := bound ps vs (fun _ => none))
  apply exs_ret
  have h1 := in_scope hf (f := execs (over P (invokeN P (applyOp P) (fun _ _ => true) M)) M [.ret (some (.lit (.num c)))])
    (L := bound ps vs (fun _ => none)) (sv := []) (sc := []) (exs_ret (ex_ret (ev_int (k := c))))
  have hc := ev_bin (P := P) (inv := invokeN P (applyOp P) (fun _ _ => true) M) (op := .eq) (by decide)
    (ev_var hf (L := bound ps vs (fun _ => none)) (sv := []) (x := k) (v := .int b) (bound_get _ _ _ hn hk vk))
    (ev_var hf (x := lim) (v := .int b) (bound_get _ _ _ hn hl vl)) (v := .bool true) (by simp [applyOp, valEq])
  simp only [exec, hc, Res.bind]
  simpa [truthy, undo] using h1

theorem find_none {f k : Sym} : ∀ (l : List Stmt) {i : Nat} {r : List Stmt}, (∀ st ∈ l, ∀ c b, st ≠ .whileS c b) →
    findLoop f k i (l ++ r) = findLoop f k (i + l.length) r := by
  intro l
  induction l with
  | nil => intros; simp
  | cons st l ih =>
    intro i r h
    have h1 := h st (by simp)
    have h2 := ih (i := i + 1) (r := r) fun st hst => h st (by simp [hst])
    simp only [List.cons_append, List.length_cons]
    rw [findLoop.eq_3 _ _ _ _ _ (fun c b => by exact h1 c b), h2]
    congr 1
    omega

theorem splice_at {x : Sym} {fast : Stmt} {t m : Bool} {e : Expr} {mid : List Stmt} (hmid : ∀ st ∈ mid, ∀ t m e, st ≠ .letS x t m e) : ∀ l : List Stmt,
    spliceAfter x fast (l ++ .letS x t m e :: mid) = some (l ++ .letS x t m e :: fast :: mid) := by
  have none_of : ∀ mid : List Stmt, (∀ st ∈ mid, ∀ t m e, st ≠ .letS x t m e) → spliceAfter x fast mid = none := by
    intro mid
    induction mid with
    | nil => intro _; rfl
    | cons st mid ih =>
      intro h
      rw [spliceAfter, ih fun st hst => h st (by simp [hst])]
      have : definesX x st = false := by
        unfold definesX
        split
        · rename_i y t m e
          simp only [beq_eq_false_iff_ne, ne_eq]
          rintro rfl
          exact h _ (by simp) t m e rfl
        · rfl
      simp [this]
  intro l
  induction l with
  | nil =>
    simp only [List.nil_append]
    rw [spliceAfter, none_of mid hmid]
    simp [definesX]
  | cons st l ih =>
    simp only [List.cons_append]
    rw [spliceAfter, ih]

/-- The base case. -/
abbrev baseCase (k lim : Sym) (cnst : Int) : Stmt := .ifS (.bin .eq (.var k) (.var lim)) [.ret (some (.lit (.num cnst)))] []

/-- What the pass makes of a function. -/
theorem rewrite_eq {f c k lim x acc : Sym} {cnst : Int} {l mid b new : List Stmt} {t m : Bool} {e : Expr}
    (hl : ∀ st ∈ l, ∀ c b, st ≠ .whileS c b) (hmid : ∀ st ∈ mid, ∀ c b, st ≠ .whileS c b) (hx : ∀ st ∈ mid, ∀ t m e, st ≠ .letS x t m e)
    (h : rewriteBody f c ((baseCase k lim cnst :: l ++ .letS x t m e :: mid) ++
      [.whileS (.bin .ne (.var x) (.lit (.num 0))) b, .ret (some (.var acc))]) = some new) :
    new = (baseCase k lim cnst :: l ++ [.letS x t m e]) ++ fastPath k lim cnst x c :: (mid ++
      [.whileS (.bin .ne (.var x) (.lit (.num 0))) b, .ret (some (.var acc))]) ∧ loopBody b x f k = some acc := by
  have hfind : findLoop f k 0 ((baseCase k lim cnst :: l ++ .letS x t m e :: mid) ++
      [.whileS (.bin .ne (.var x) (.lit (.num 0))) b, .ret (some (.var acc))]) =
      (loopBody b x f k).map fun acc => ((baseCase k lim cnst :: l ++ .letS x t m e :: mid).length, x, acc) := by
    rw [find_none]
    · rw [findLoop]
      cases hb : loopBody b x f k <;> simp [loopX, asInt, asIdent, hb, findLoop]
    · intro st hst
      simp only [List.cons_append, List.mem_cons, List.mem_append] at hst
      rcases hst with rfl | hst | rfl | hst
      · intro c b h; cases h
      · exact hl st hst
      · intro c b h; cases h
      · exact hmid st hst
  have hbase : matchBase (baseCase k lim cnst) = some (k, lim, cnst) := rfl
  have hsp := splice_at (fast := fastPath k lim cnst x c) (t := t) (m := m) (e := e) hx (baseCase k lim cnst :: l)
  unfold rewriteBody at h
  split_ifs at h with h1 h2
  simp only [List.cons_append] at h hfind hsp
  rw [hbase] at h
  simp only at h
  rw [hfind] at h
  cases hb : loopBody b x f k with
  | none => simp [hb] at h
  | some acc' =>
    rw [hb] at h
    simp only [Option.map_some] at h
    have ht : ∀ (A B : List Stmt), (A ++ B).take A.length = A ∧ (A ++ B).drop A.length = B := by simp
    have ht := ht (baseCase k lim cnst :: (l ++ .letS x t m e :: mid)) [.whileS (.bin .ne (.var x) (.lit (.num 0))) b, .ret (some (.var acc))]
    simp only [List.cons_append] at ht
    rw [ht.1, ht.2, hsp] at h
    split_ifs at h with h3 h4
    have hacc : acc = acc' := by
      have hlast : (baseCase k lim cnst :: (l ++ .letS x t m e :: mid ++ [.whileS (.bin .ne (.var x) (.lit (.num 0))) b, .ret (some (.var acc))])).getLast? =
          some (.ret (some (.var acc))) := by
        rw [show baseCase k lim cnst :: (l ++ .letS x t m e :: mid ++ [.whileS (.bin .ne (.var x) (.lit (.num 0))) b, .ret (some (.var acc))]) =
          (baseCase k lim cnst :: (l ++ .letS x t m e :: mid ++ [.whileS (.bin .ne (.var x) (.lit (.num 0))) b])) ++ [.ret (some (.var acc))] by simp]
        exact List.getLast?_concat
      rw [hlast] at h4
      simpa [returnsAcc, asIdent] using h4
    cases h
    exact ⟨by simp, by rw [hacc]⟩

/-- A function and what the pass makes of it return the same. -/
theorem leaf_run {f c k lim x acc bit : Sym} {cnst a b : Int} {ps : List Sym} {pre mid rest : List Stmt} {v w u : Expr} {tb mb : Bool} {args : List Expr}
    {vs : List Value} {M : Nat} (hM : 64 < M) (hd : [k, lim, x, acc, bit].Nodup) {L L2 : VMap} {X : BitVec 64} (hX : X.msb = false)
    (hv : isLowestBit v x = true) (hw : isXorOf w x bit = true)
    (hu : u = .bin .add (.var acc) (.call f args) ∨ u = .bin .add (.call f args) (.var acc))
    (h1 : execs (over P (invokeN P (applyOp P) (fun _ _ => true) M)) M pre (withLocals (inside s) (bound ps vs (fun _ => none)) []) =
      (.ok .cont, withLocals (inside s) L []))
    (lx : L x = some (V X)) (lk : L k = some (.int a)) (ll : L lim = some (.int b)) (hab : a + 1 = b)
    (h2 : execs (over P (invokeN P (applyOp P) (fun _ _ => true) M)) M mid (withLocals (inside s) L []) = (.ok .cont, withLocals (inside s) L2 []))
    (l2 : ∀ y, y ≠ acc → L2 y = L y) (lacc : L2 acc = some (.int 0))
    (hones : ∃ g, P.builtin c = some g ∧ g [V X] = .ok (.int (places X).length)) (hf0 : P.builtin f = none)
    (hfun : s.funs f = some ⟨ps, baseCase k lim cnst :: rest⟩) (hps : ps.Nodup) (hlen : args.length = ps.length) {i j : Nat}
    (pk : ps[i]? = some k) (pl : ps[j]? = some lim) (ak : (args[i]?).any (isKPlusOne k) = true) (al : args[j]? = some (.var lim))
    (hargs : ∀ e ∈ args, ∀ L' sv, (∀ y, y ≠ x → y ≠ acc → y ≠ bit → L' y = L y) → (∃ k, k < 63 ∧ X.getLsbD k = true ∧ L' bit = some (V (BitVec.twoPow 64 k))) →
      ∃ v, evalE (over P (invokeN P (applyOp P) (fun _ _ => true) M)) e (withLocals (inside s) L' sv) = (.ok v, withLocals (inside s) L' sv)) :
    invokeN P (applyOp P) (fun _ _ => true) (M + 1) (.fn ⟨ps, pre ++ fastPath k lim cnst x c :: (mid ++
        [.whileS (.bin .ne (.var x) (.lit (.num 0))) [.letS bit tb mb v, .set x w, .set acc u], .ret (some (.var acc))])⟩) vs s =
      (.ok (.int (cnst * (places X).length)), s) ∧
    invokeN P (applyOp P) (fun _ _ => true) (M + 1) (.fn ⟨ps, pre ++ (mid ++
        [.whileS (.bin .ne (.var x) (.lit (.num 0))) [.letS bit tb mb v, .set x w, .set acc u], .ret (some (.var acc))])⟩) vs s =
      (.ok (.int (cnst * (places X).length)), s) := by
  have hf := inside_frames s
  simp only [List.nodup_cons, List.mem_cons, List.not_mem_nil, or_false, not_or, List.nodup_nil, and_true, not_false_eq_true] at hd
  obtain ⟨⟨hkl, hkx, hka, hkb⟩, ⟨hlx, hla, hlb⟩, ⟨hxa, hxb⟩, hab'⟩ := hd
  obtain ⟨g, hg, hgx⟩ := hones
  have app : ∀ (A B : List Stmt) (S S' : State), execs (over P (invokeN P (applyOp P) (fun _ _ => true) M)) M A S = (.ok .cont, S') →
      execs (over P (invokeN P (applyOp P) (fun _ _ => true) M)) M (A ++ B) S = execs (over P (invokeN P (applyOp P) (fun _ _ => true) M)) M B S' := by
    intro A
    induction A with
    | nil =>
      intro B S S' h
      simp [execs] at h
      simp [h]
    | cons st A ih =>
      intro B S S' h
      rw [List.cons_append, execs]
      rw [execs] at h
      cases hst : exec (over P (invokeN P (applyOp P) (fun _ _ => true) M)) M st S with
      | mk r S1 =>
        rw [hst] at h
        cases r with
        | error e => simp [Res.bind] at h
        | ok fl =>
          cases fl <;> simp [Res.bind] at h ⊢
          exact ih _ _ _ h
  constructor
  · show invokeFun (over P (invokeN P (applyOp P) (fun _ _ => true) M)) M _ _ s = _
    apply call_returns (L' := L)
    show execs _ M (pre ++ _) _ = _
    rw [app _ _ _ _ h1]
    exact exs_ret (fast_take hf lk ll hab lx hg hgx)
  · show invokeFun (over P (invokeN P (applyOp P) (fun _ _ => true) M)) M _ _ s = _
    obtain ⟨L', hw', hacc⟩ := leaf_loop (P := P) (inv := invokeN P (applyOp P) (fun _ _ => true) M) hf hxb hxa (Ne.symm hab') (call := .call f args) (t := tb) (mu := mb) hv hw hu cnst L2 M
      (fun k => k < 63 ∧ X.getLsbD k = true) (by
        intro L' sv p hp hL' hbit
        obtain ⟨M, rfl⟩ := Nat.exists_eq_succ_of_ne_zero (show M ≠ 0 by omega)
        obtain ⟨vs', he, hget⟩ := evs_get (P := P) (inv := invokeN P (applyOp P) (fun _ _ => true) (M + 1)) (st := withLocals (inside s) L' sv) args (by
          intro e he
          exact hargs e he L' sv (fun y h1 h2 h3 => by rw [hL' y h1 h2 h3, l2 y h2]) ⟨p, hp.1, hp.2, hbit⟩)
        have gk : L' k = some (.int a) := by rw [hL' k hkx hka hkb, l2 k hka, lk]
        have gl : L' lim = some (.int b) := by rw [hL' lim hlx hla hlb, l2 lim hla, ll]
        obtain ⟨ek, hek, hk1⟩ : ∃ e, args[i]? = some e ∧ isKPlusOne k e = true := by
          cases h : args[i]? with
          | none => simp [h] at ak
          | some e => exact ⟨e, rfl, by simpa [h] using ak⟩
        obtain ⟨vk, hvk, evk⟩ := hget i _ hek
        obtain ⟨vl, hvl, evl⟩ := hget j _ al
        have e1 : vl = .int b := by
          rw [ev_var hf gl] at evl
          simpa using evl.symm
        have e2 : vk = .int b := by
          have : evalE (over P (invokeN P (applyOp P) (fun _ _ => true) (M + 1))) ek (withLocals (inside s) L' sv) = (.ok (.int b), withLocals (inside s) L' sv) := by
            unfold isKPlusOne at hk1
            split at hk1
            swap
            · cases hk1
            simp only [Bool.or_eq_true, Bool.and_eq_true, beq_iff_eq] at hk1
            rcases hk1 with ⟨ha, hb⟩ | ⟨ha, hb⟩
            · rw [ident_eq ha, int_eq hb]
              exact ev_bin (by decide) (ev_var hf gk) (ev_int (k := 1)) (by simp [applyOp, addVals, hab])
            · rw [int_eq ha, ident_eq hb]
              exact ev_bin (by decide) (ev_int (k := 1)) (ev_var hf gk) (by simp [applyOp, addVals, ← hab, Int.add_comm])
          rw [this] at evk
          simpa using evk.symm
        subst e1 e2
        exact ev_call hf0 (show (withLocals (inside s) L' sv).funs f = _ from hfun) hlen he (child_run hps pk pl hvk hvl _))
      (places X) X 0 M L2 [] rfl (by
        intro p hp
        rw [mem_places] at hp
        have : p < 63 := by
          by_contra hn
          have h64 : p < 64 := by
            by_contra hn
            rw [BitVec.getLsbD_of_ge _ _ (by omega)] at hp
            cases hp
          have : p = 63 := by omega
          rw [this] at hp
          rw [BitVec.msb_eq_getLsbD_last] at hX
          exact absurd (hX.symm.trans hp) (by decide)
        exact ⟨⟨this, hp⟩, this⟩) (by have := places_length X; omega) (fun _ _ _ _ => rfl) (by rw [l2 x hxa, lx]) lacc
    apply call_returns (L' := L')
    show execs _ M (pre ++ _) _ = _
    rw [app _ _ _ _ h1, app _ _ _ _ h2]
    refine (exs_cons (ex_while hw')).trans ?_
    refine exs_ret (ex_ret (ev_var hf ?_))
    rw [hacc, zero_add]

/-! ## The queens -/

/-- `solve` with the last row counted at once. -/
def leafBody : List Stmt :=
  [.ifS (.bin .eq (.var 0) (.var 4)) [.ret (some (intLit 1))] [],
   .letS 5 false false (.bin .sub (.bin .shl (intLit 1) (.var 4)) (intLit 1)),
   .letS 6 false true (.bin .bitAnd (.var 5) (.bin .bitXor (.bin .bitOr (.bin .bitOr (.var 1) (.var 2)) (.var 3)) (intLit (-1)))),
   fastPath 0 4 1 6 99,
   .letS 7 false true (intLit 0),
   .whileS (.bin .ne (.var 6) (intLit 0)) (bitBody 6 8 7 solveCall),
   .ret (some (.var 7))]

/-- The function. -/
def leafFun : Fun := ⟨[0, 1, 2, 3, 4], leafBody⟩

theorem leaf_rewrite : rewriteBody 100 99 solveBody = some leafBody := rfl

/-- The search counts, with the last row counted at once. -/
theorem leaf_solve_run (P : Prims) (ho : ∃ g, P.builtin 99 = some g ∧ ∀ X : BitVec 64, g [V X] = .ok (.int (places X).length)) (hb : P.builtin 100 = none) {n : Nat} (hn : n < 63) :
    ∀ (r m row : Nat) (c a b : BitVec 64) (s : State), s.funs 100 = some leafFun → row + r = n → r + 66 ≤ m →
      invokeN P (applyOp P) (fun _ _ => true) m (.fn leafFun) [.int row, V c, V a, V b, .int n] s = (.ok (.int (count n r c a b)), s) := by
  intro r
  induction r with
  | zero =>
    intro m row c a b s hs hr hm
    obtain ⟨m, rfl⟩ := Nat.exists_eq_succ_of_ne_zero (show m ≠ 0 by omega)
    have hf := inside_frames s
    show invokeFun (over P (invokeN P (applyOp P) (fun _ _ => true) m)) m leafFun _ s = _
    apply call_returns (L' := bound leafFun.params [.int row, V c, V a, V b, .int n] (fun _ => none))
    show execs _ m leafBody _ = _
    unfold leafBody
    apply exs_ret
    have h1 := in_scope hf (f := execs (over P (invokeN P (applyOp P) (fun _ _ => true) m)) m [.ret (some (intLit 1))])
      (L := bound leafFun.params [.int row, V c, V a, V b, .int n] (fun _ => none)) (sv := []) (sc := []) (exs_ret (ex_ret (ev_int (k := 1))))
    have hc := ev_bin (P := P) (inv := invokeN P (applyOp P) (fun _ _ => true) m) (op := .eq) (by decide)
      (ev_var hf (L := bound leafFun.params [.int row, V c, V a, V b, .int n] (fun _ => none)) (sv := []) (x := 0) (v := .int row) (by simp [bound, leafFun, VMap.put]))
      (ev_var hf (x := 4) (v := .int n) (by simp [bound, leafFun, VMap.put]))
      (v := .bool true) (by simp [applyOp, valEq]; omega)
    simp only [exec, hc, Res.bind]
    simpa [truthy, undo, count] using h1
  | succ r ih =>
    intro m row c a b s hs hr hm
    obtain ⟨m, rfl⟩ := Nat.exists_eq_succ_of_ne_zero (show m ≠ 0 by omega)
    have hf := inside_frames s
    show invokeFun (over P (invokeN P (applyOp P) (fun _ _ => true) m)) m leafFun _ s = _
    generalize hinv : invokeN P (applyOp P) (fun _ _ => true) m = inv at *
    generalize hL0 : bound leafFun.params [.int row, V c, V a, V b, .int n] (fun _ => none) = L0
    have hv : L0 0 = some (.int row) ∧ L0 1 = some (V c) ∧ L0 2 = some (V a) ∧ L0 3 = some (V b) ∧ L0 4 = some (.int n) := by
      subst hL0
      simp [bound, leafFun, VMap.put]
    obtain ⟨v0, v1, v2, v3, v4⟩ := hv
    have e0 := ex_if_false (P := P) (inv := inv) hf (t := [.ret (some (intLit 1))]) (n := m) (sv := [])
      (ev_bin (op := .eq) (by decide) (ev_var hf v0) (ev_var hf v4) (v := .bool false) (by simp [applyOp, valEq]; omega))
    have e1 := ex_let (P := P) (inv := inv) hf (sv := []) (x := 5) (t := false) (m := false) (n := m)
      (ev_bin (op := .sub) (by decide) (ev_bin (op := .shl) (by decide) (ev_int (k := 1)) (ev_var hf v4) (op_one_shl P hn)) (ev_int (k := 1)) (op_full P hn))
    have p1 : (L0.put 5 (some (V (fullMask n)))) 1 = some (V c) := by simp [VMap.put, v1]
    have p2 : (L0.put 5 (some (V (fullMask n)))) 2 = some (V a) := by simp [VMap.put, v2]
    have p3 : (L0.put 5 (some (V (fullMask n)))) 3 = some (V b) := by simp [VMap.put, v3]
    have p5 : (L0.put 5 (some (V (fullMask n)))) 5 = some (V (fullMask n)) := by simp [VMap.put]
    have hm1 : ∀ st : State, evalE (over P inv) (intLit (-1)) st = (.ok (V (BitVec.allOnes 64)), st) := by
      intro st; rw [ev_int, minus_one]
    have e2 := ex_let (P := P) (inv := inv) hf (sv := []) (x := 6) (t := false) (m := true) (n := m)
      (ev_bin (op := .bitAnd) (by decide) (ev_var hf p5) (ev_bin (op := .bitXor) (by decide)
        (ev_bin (op := .bitOr) (by decide) (ev_bin (op := .bitOr) (by decide) (ev_var hf p1) (ev_var hf p2) (op_or P _ _)) (ev_var hf p3) (op_or P _ _))
        (hm1 _) (op_xor P _ _)) (op_and P _ _))
    rw [xor_ones] at e2
    generalize hX : fullMask n &&& ~~~ (c ||| a ||| b) = X at *
    have w0 : ((L0.put 5 (some (V (fullMask n)))).put 6 (some (V X))) 0 = some (.int row) := by simp [VMap.put, v0]
    have w4 : ((L0.put 5 (some (V (fullMask n)))).put 6 (some (V X))) 4 = some (.int n) := by simp [VMap.put, v4]
    have w6 : ((L0.put 5 (some (V (fullMask n)))).put 6 (some (V X))) 6 = some (V X) := by simp [VMap.put]
    by_cases hlast : r = 0
    · subst hlast
      obtain ⟨g, hg, hgx⟩ := ho
      have ef := fast_take (P := P) (inv := inv) hf (n := m) (sv := []) (cnst := 1) (c := 99) w0 w4 (by omega) w6 hg (hgx X)
      apply call_returns (L' := (L0.put 5 (some (V (fullMask n)))).put 6 (some (V X)))
      rw [hL0]
      show execs _ m leafBody _ = _
      unfold leafBody
      rw [exs_cons e0, exs_cons e1]
      simp only [recordSave]
      rw [exs_cons e2]
      simp only [recordSave]
      refine (exs_ret ef).trans ?_
      rw [count, hX, sumOver]
      simp [count]
    have ef := fast_skip (P := P) (inv := inv) hf (n := m) (sv := []) (cnst := 1) (c := 99) (x := 6) w0 w4 (by omega)
    have e3 := ex_let (P := P) (inv := inv) hf (L := (L0.put 5 (some (V (fullMask n)))).put 6 (some (V X))) (sv := []) (x := 7) (t := false) (m := true) (n := m) (ev_int (k := 0))
    generalize hL3 : (((L0.put 5 (some (V (fullMask n)))).put 6 (some (V X))).put 7 (some (.int 0))) = L3 at *
    have q : L3 0 = some (.int row) ∧ L3 1 = some (V c) ∧ L3 2 = some (V a) ∧ L3 3 = some (V b) ∧ L3 4 = some (.int n) ∧ L3 6 = some (V X) ∧
        L3 7 = some (.int 0) := by
      subst hL3
      simp [VMap.put, v0, v1, v2, v3, v4]
    obtain ⟨q0, q1, q2, q3, q4, q6, q7⟩ := q
    have hfun : ∀ L sv, (withLocals (inside s) L sv).funs 100 = some leafFun := fun L sv => hs
    obtain ⟨L', hw, -, hacc⟩ := bit_loop (P := P) (inv := inv) hf 6 8 7 (by decide) (by decide) (by decide) solveCall
      (fun k => count n r (c ||| BitVec.twoPow 64 k) ((a ||| BitVec.twoPow 64 k) <<< 1) ((b ||| BitVec.twoPow 64 k).sshiftRight 1))
      L3 m (fun k => k < n)
      (by
        intro L sv k hk hL hbit
        have g0 : L 0 = some (.int row) := by rw [hL 0 (by decide) (by decide) (by decide), q0]
        have g1 : L 1 = some (V c) := by rw [hL 1 (by decide) (by decide) (by decide), q1]
        have g2 : L 2 = some (V a) := by rw [hL 2 (by decide) (by decide) (by decide), q2]
        have g3 : L 3 = some (V b) := by rw [hL 3 (by decide) (by decide) (by decide), q3]
        have g4 : L 4 = some (.int n) := by rw [hL 4 (by decide) (by decide) (by decide), q4]
        unfold solveCall
        refine ev_call hb (hfun L sv) rfl
          (evs_cons (ev_bin (op := .add) (by decide) (ev_var hf g0) (ev_int (k := 1)) (v := .int ((row + 1 : Nat) : Int)) (by simp [applyOp, addVals]))
            (evs_cons (ev_bin (op := .bitOr) (by decide) (ev_var hf g1) (ev_var hf hbit) (op_or P _ _))
              (evs_cons (ev_bin (op := .shl) (by decide) (ev_bin (op := .bitOr) (by decide) (ev_var hf g2) (ev_var hf hbit) (op_or P _ _)) (ev_int (k := 1)) (op_shl1 P _))
                (evs_cons (ev_bin (op := .shr) (by decide) (ev_bin (op := .bitOr) (by decide) (ev_var hf g3) (ev_var hf hbit) (op_or P _ _)) (ev_int (k := 1)) (op_shr1 P _))
                  (evs_cons (ev_var hf g4) evs_nil))))) ?_
        rw [← hinv]
        exact ih m (row + 1) _ _ _ _ (hfun L sv) (by omega) (by omega))
      (places X) X 0 m L3 [] rfl (by rw [← hX]; exact places_mask hn _) (by have := places_length X; omega) (fun _ _ _ _ => rfl) q6 q7
    apply call_returns (L' := L')
    rw [hL0]
    show execs _ m leafBody _ = _
    unfold leafBody
    rw [exs_cons e0, exs_cons e1]
    simp only [recordSave]
    rw [exs_cons e2]
    simp only [recordSave]
    rw [exs_cons ef, exs_cons e3]
    simp only [recordSave]
    rw [exs_cons (ex_while hw)]
    refine exs_ret (ex_ret (ev_var hf ?_))
    rw [hacc, zero_add, count, hX, sumOver]

/-! ## Above the last level -/

theorem execs_app (I : Inst) (n : Nat) (A B : List Stmt) (S : State) :
    execs I n (A ++ B) S = (execs I n A S).bind fun fl S' => match fl with | .cont => execs I n B S' | fl => (.ok fl, S') := by
  induction A generalizing S with
  | nil => simp [execs, Res.bind]
  | cons st A ih =>
    rw [List.cons_append, execs, execs]
    cases hst : exec I n st S with
    | mk r S1 =>
      cases r with
      | error e => simp [Res.bind]
      | ok fl => cases fl <;> simp [Res.bind, ih]

/-- Where the new test fails nothing changes. -/
theorem above_run {k lim x c : Sym} {cnst : Int} {ps : List Sym} {pre rest : List Stmt} {vs : List Value} {M : Nat}
    (h : ∀ t, execs (over P (invokeN P (applyOp P) (fun _ _ => true) M)) M pre (s.withEnv fun e => bindParams ps vs e.pushFrame) = (.ok .cont, t) →
      t.env.frames ≠ [] ∧ ∃ a b, t.env.lookup k = some (.int a) ∧ t.env.lookup lim = some (.int b) ∧ a + 1 ≠ b) :
    invokeN P (applyOp P) (fun _ _ => true) (M + 1) (.fn ⟨ps, pre ++ fastPath k lim cnst x c :: rest⟩) vs s =
      invokeN P (applyOp P) (fun _ _ => true) (M + 1) (.fn ⟨ps, pre ++ rest⟩) vs s := by
  show invokeFun (over P (invokeN P (applyOp P) (fun _ _ => true) M)) M _ _ s = invokeFun (over P (invokeN P (applyOp P) (fun _ _ => true) M)) M _ _ s
  have e : execs (over P (invokeN P (applyOp P) (fun _ _ => true) M)) M (pre ++ fastPath k lim cnst x c :: rest) (s.withEnv fun e => bindParams ps vs e.pushFrame) =
      execs (over P (invokeN P (applyOp P) (fun _ _ => true) M)) M (pre ++ rest) (s.withEnv fun e => bindParams ps vs e.pushFrame) := by
    rw [execs_app, execs_app]
    cases hp : execs (over P (invokeN P (applyOp P) (fun _ _ => true) M)) M pre (s.withEnv fun e => bindParams ps vs e.pushFrame) with
    | mk r t =>
      cases r with
      | error e => simp [Res.bind]
      | ok fl =>
        cases fl <;> simp only [Res.bind]
        obtain ⟨hf, a, b, hk, hl, hab⟩ := h t hp
        have ht : t = withLocals t t.env.locals t.env.saves := rfl
        have rd : ∀ {y v}, t.env.lookup y = some v → evalE (over P (invokeN P (applyOp P) (fun _ _ => true) M)) (.var y) t = (.ok v, t) := by
          intro y v h
          simp [evalE, evVar, h, over]
        have hc : evalE (over P (invokeN P (applyOp P) (fun _ _ => true) M)) (.bin .eq (.var k) (.bin .sub (.var lim) (.lit (.num 1)))) t = (.ok (.bool false), t) := by
          refine ev_bin (by decide) (rd hk) (ev_bin (op := .sub) (by decide) (rd hl) (ev_int (k := 1)) (CF.op_sub P _ _)) ?_
          simp only [applyOp, valEq, beq_eq_decide]
          rw [decide_eq_false (by omega)]
        exact exs_cons (ex_if_false (P := P) (s := t) hf (L := t.env.locals) (sv := t.env.saves) hc)
  simp only [invokeFun, inFrame, e]

end Verif.Lang.Pop
