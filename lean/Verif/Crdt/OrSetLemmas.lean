import Verif.Crdt.OrSet
import Verif.Crdt.WorldInv
import Mathlib.Tactic.Tauto
namespace Verif.Crdt

/-! ## The dot rule of both containers -/

theorem mem_foldl_insert {l acc : List Dot} {p : Dot → Bool} {d : Dot} :
    d ∈ l.foldl (fun acc d => if p d then acc.insert d else acc) acc ↔ d ∈ acc ∨ (d ∈ l ∧ p d = true) := by
  induction l generalizing acc with
  | nil => simp
  | cons h t ih =>
    rw [List.foldl_cons, ih]
    by_cases hp : p h = true
    · rw [if_pos hp, List.mem_insert_iff, List.mem_cons]
      constructor
      · rintro ((rfl | h1) | ⟨h1, h2⟩)
        · exact Or.inr ⟨Or.inl rfl, hp⟩
        · exact Or.inl h1
        · exact Or.inr ⟨Or.inr h1, h2⟩
      · rintro (h1 | ⟨rfl | h1, h2⟩)
        · exact Or.inl (Or.inr h1)
        · exact Or.inl (Or.inl rfl)
        · exact Or.inr ⟨h1, h2⟩
    · rw [if_neg hp, List.mem_cons]
      constructor
      · rintro (h1 | ⟨h1, h2⟩)
        · exact Or.inl h1
        · exact Or.inr ⟨Or.inr h1, h2⟩
      · rintro (h1 | ⟨rfl | h1, h2⟩)
        · exact Or.inl h1
        · exact absurd h2 hp
        · exact Or.inr ⟨h1, h2⟩

namespace ORSet
variable {T : Type} [DecidableEq T]

/-- dots kept before the bias is consulted -/
def Kept (a b : DotContext) (A B : List Dot) (d : Dot) : Prop :=
  (d ∈ A ∧ (b.hasSeen d = false ∨ d ∈ B)) ∨ (d ∈ B ∧ (a.hasSeen d = false ∨ d ∈ A))

theorem mem_mergeDots {bias : Bias} {a b : DotContext} {A B : List Dot} {d : Dot} :
    d ∈ mergeDots bias a b A B ↔ Kept a b A B d ∧
      bias (!A.isEmpty) (!B.isEmpty) (A.isEmpty && B.any (fun d => a.hasSeen d))
        (B.isEmpty && A.any (fun d => b.hasSeen d)) = true := by
  simp only [mergeDots]
  split
  · next h =>
    simp only [h, and_true]
    rw [mem_foldl_insert, mem_foldl_insert]
    simp only [List.not_mem_nil, false_or, Bool.or_eq_true, Bool.not_eq_true', decide_eq_true_eq, Kept]
  · next h => simp only [h, Bool.false_eq_true, and_false, List.not_mem_nil]

theorem mem_mergeDots_addWins {a b : DotContext} {A B : List Dot} {d : Dot} :
    d ∈ mergeDots addWins a b A B ↔ Kept a b A B d := by
  rw [mem_mergeDots]
  constructor
  · exact fun h => h.1
  · intro h
    refine ⟨h, ?_⟩
    rcases h with ⟨h, _⟩ | ⟨h, _⟩
    · have : A ≠ [] := List.ne_nil_of_mem h
      simp [addWins, this]
    · have : B ≠ [] := List.ne_nil_of_mem h
      simp [addWins, this]

theorem merge_fold_get (bias : Bias) (a b : DotContext) (E O : HMap T (List Dot)) (ks : List T)
    (nd : ks.Nodup) (x : T) :
    (ks.foldl (fun acc v => acc.insert v (mergeDots bias a b (acc.getD v []) (O.getD v []))) E).getD x []
      = if x ∈ ks then mergeDots bias a b (E.getD x []) (O.getD x []) else E.getD x [] := by
  induction ks generalizing E with
  | nil => simp
  | cons k t ih =>
    rw [List.nodup_cons] at nd
    rw [List.foldl_cons, ih _ nd.2]
    by_cases hx : x = k
    · subst hx
      simp [nd.1, HMap.getD_insert]
    · simp [hx, HMap.getD_insert]

theorem getD_retain_nonempty (m : HMap T (List Dot)) (x : T) :
    (m.retain (fun _ ds => !ds.isEmpty)).getD x [] = m.getD x [] := by
  simp only [HMap.getD, HMap.get?_retain]
  cases h : m.get? x with
  | none => rfl
  | some ds => cases ds <;> simp [Option.filter]

theorem dots_merge (bias : Bias) (s o : ORSet T) (x : T) (d : Dot) :
    d ∈ (s.merge bias o).dots x ↔ d ∈ mergeDots bias s.context o.context (s.dots x) (o.dots x) := by
  simp only [dots, merge]
  rw [getD_retain_nonempty, merge_fold_get _ _ _ _ _ _ (List.nodup_dedup _)]
  split
  · rfl
  · next h =>
    simp only [List.mem_dedup, List.mem_append, not_or] at h
    have h1 : s.entries.getD x [] = [] := by simp [HMap.getD, HMap.get?_eq_none.2 h.1]
    have h2 : o.entries.getD x [] = [] := by simp [HMap.getD, HMap.get?_eq_none.2 h.2]
    rw [h1, h2, mem_mergeDots]
    simp [Kept]

theorem dots_add (s : ORSet T) (x y : T) (d : Dot) :
    d ∈ (s.add x).dots y ↔ d ∈ s.dots y ∨ (y = x ∧ d = (s.context.next s.replicaId).2) := by
  simp only [dots, add, HMap.getD_upsert]
  split
  · next h => subst h; rw [List.mem_insert_iff]; tauto
  · next h => tauto

theorem dots_remove (s : ORSet T) (x y : T) (d : Dot) :
    d ∈ (s.remove x).dots y ↔ y ≠ x ∧ d ∈ s.dots y := by
  simp only [dots, remove, HMap.getD, HMap.get?_erase]
  split
  · next h => simp [h]
  · next h => simp [h]

theorem contains_iff (s : ORSet T) (x : T) : s.contains x = true ↔ ∃ d, d ∈ s.dots x := by
  simp only [contains, dots, HMap.getD]
  cases h : s.entries.get? x with
  | none => simp
  | some ds => cases ds with
    | nil => simp
    | cons a t => simp only [Option.getD_some, List.isEmpty_cons, Bool.not_false, true_iff]; exact ⟨a, by simp⟩

end ORSet

namespace ORMap
variable {K V : Type} [DecidableEq K]

theorem addKeys_getD (ctx : DotContext) (mine other : HMap K (List Dot)) (k : K) (d : Dot) :
    d ∈ (addKeys ctx mine other).getD k [] ↔
      d ∈ mine.getD k [] ∨ (d ∈ other.getD k [] ∧ ctx.hasSeen d = false) := by
  rw [addKeys, HMap.fold_upsert_getD other mine [] (fun ds ods =>
    ods.foldl (fun ds d => if !ctx.hasSeen d then ds.insert d else ds) ds)]
  cases h : other.get? k with
  | none => simp [HMap.getD, h]
  | some ods =>
    simp only
    rw [mem_foldl_insert (p := fun d => !ctx.hasSeen d)]
    simp [HMap.getD, h]

theorem dropKeys_getD (octx : DotContext) (mine other : HMap K (List Dot)) (k : K) (d : Dot) :
    d ∈ (dropKeys octx mine other).getD k [] ↔
      d ∈ mine.getD k [] ∧ (octx.hasSeen d = false ∨ d ∈ other.getD k []) := by
  have main : ∀ (ks : List K) (acc : HMap K (List Dot)), ks.Nodup →
      (ks.foldl (fun acc k =>
        match acc.get? k with
        | none => acc
        | some ds => acc.insert k
          (match other.get? k with
           | none => ds.filter (fun d => !octx.hasSeen d)
           | some ods => ds.filter (fun d => !octx.hasSeen d || decide (d ∈ ods)))) acc).getD k [] =
        if k ∈ ks then (acc.getD k []).filter
          (fun d => !octx.hasSeen d || decide (d ∈ other.getD k [])) else acc.getD k [] := by
    intro ks
    induction ks with
    | nil => intro acc _; simp
    | cons x t ih =>
      intro acc nd
      rw [List.nodup_cons] at nd
      rw [List.foldl_cons, ih _ nd.2]
      by_cases hx : k = x
      · subst hx
        simp only [nd.1, if_false, List.mem_cons_self, if_true]
        cases h : acc.get? k with
        | none => simp [HMap.getD, h]
        | some ds =>
          simp only [HMap.getD_insert, if_true]
          cases h2 : other.get? k with
          | none => simp [HMap.getD, h, h2]
          | some ods => simp [HMap.getD, h, h2]
      · simp only [List.mem_cons, hx, false_or]
        have : (match acc.get? x with
          | none => acc
          | some ds => acc.insert x
            (match other.get? x with
             | none => ds.filter (fun d => !octx.hasSeen d)
             | some ods => ds.filter (fun d => !octx.hasSeen d || decide (d ∈ ods)))).getD k []
            = acc.getD k [] := by
          split
          · rfl
          · rw [HMap.getD_insert, if_neg hx]
        rw [this]
  rw [show (dropKeys octx mine other).getD k [] = _ from main mine.keys mine mine.nodup]
  split
  · simp [List.mem_filter]
  · next h =>
    have h1 : mine.getD k [] = [] := by simp [HMap.getD, HMap.get?_eq_none.2 h]
    simp [h1]

theorem dots_merge (vm : V → V → V) (dv : V) (s o : ORMap K V) (k : K) (d : Dot) :
    d ∈ (s.merge vm dv o).dots k ↔
      (d ∈ s.dots k ∨ (d ∈ o.dots k ∧ s.context.hasSeen d = false)) ∧
        (o.context.hasSeen d = false ∨ d ∈ o.dots k) := by
  simp only [dots, merge]
  rw [ORSet.getD_retain_nonempty, dropKeys_getD, addKeys_getD]

theorem dots_update (dv : V) (s : ORMap K V) (x y : K) (f) (d : Dot) :
    d ∈ (s.update dv x f).dots y ↔ d ∈ s.dots y ∨ (y = x ∧ d = (s.context.next s.replicaId).2) := by
  simp only [dots, update, HMap.getD_upsert]
  split
  · next h => subst h; rw [List.mem_insert_iff]; tauto
  · next h => tauto

theorem dots_remove (s : ORMap K V) (x y : K) (d : Dot) :
    d ∈ (s.remove x).dots y ↔ y ≠ x ∧ d ∈ s.dots y := by
  simp only [dots, remove, HMap.getD, HMap.get?_erase]
  split
  · next h => simp [h]
  · next h => simp [h]

theorem containsKey_iff (s : ORMap K V) (x : K) : s.containsKey x = true ↔ ∃ d, d ∈ s.dots x := by
  simp only [containsKey, dots, HMap.getD]
  cases h : s.keys.get? x with
  | none => simp
  | some ds => cases ds with
    | nil => simp
    | cons a t => simp only [Option.getD_some, List.isEmpty_cons, Bool.not_false, true_iff]; exact ⟨a, by simp⟩

end ORMap

/-! ## Both containers at once: types that keep dots per key under the add-wins rule -/

inductive Kind (K : Type)
  | add (k : K)
  | rem (k : K)
  | other
deriving DecidableEq

structure DotStore {S Op : Type} (T : Rdt S Op) (K : Type) where
  dots : S → K → List Dot
  ctx : S → DotContext
  rid : S → Rid
  kind : Op → Kind K
  init_dots : ∀ r k, dots (T.init r) k = []
  init_ctx : ∀ r, ctx (T.init r) = .new
  init_rid : ∀ r, rid (T.init r) = r
  op_rid : ∀ o s, rid (T.apply o s) = rid s
  op_ctx : ∀ o s, ctx (T.apply o s) =
    match kind o with
    | .add _ => ((ctx s).next (rid s)).1
    | _ => ctx s
  op_dots : ∀ o s k d, d ∈ dots (T.apply o s) k ↔
    match kind o with
    | .add k' => d ∈ dots s k ∨ (k = k' ∧ d = ((ctx s).next (rid s)).2)
    | .rem k' => k ≠ k' ∧ d ∈ dots s k
    | .other => d ∈ dots s k
  merge_rid : ∀ a b, rid (T.merge a b) = rid a
  merge_ctx : ∀ a b, ctx (T.merge a b) = (ctx a).merge (ctx b)
  merge_dots : ∀ a b k d, d ∈ dots (T.merge a b) k ↔
    (d ∈ dots a k ∧ ((ctx b).hasSeen d = false ∨ d ∈ dots b k)) ∨
    (d ∈ dots b k ∧ ((ctx a).hasSeen d = false ∨ d ∈ dots a k))

section
variable {S Op K : Type} {T : Rdt S Op} (D : DotStore T K)

/-- is the event an add? -/
def isAdd (iss : Iss S Op) (e : Ev) : Bool :=
  match iss e with
  | some i => match D.kind i.op with
    | .add _ => true
    | _ => false
  | none => false

/-- number of adds among the first `n` operations of `r` -/
def addCount (iss : Iss S Op) (r n : Nat) : Nat := (List.range n).countP (fun j => isAdd D iss ⟨r, j⟩)

theorem addCount_succ (iss : Iss S Op) (r n : Nat) :
    addCount D iss r (n + 1) = addCount D iss r n + if isAdd D iss ⟨r, n⟩ then 1 else 0 := by
  simp only [addCount, List.range_succ, List.countP_append, List.countP_singleton]

theorem addCount_mono (iss : Iss S Op) (r : Nat) {n m : Nat} (h : n ≤ m) :
    addCount D iss r n ≤ addCount D iss r m := by
  induction h with
  | refl => exact Nat.le_refl _
  | step _ ih => rw [addCount_succ]; omega

theorem addCount_congr {iss iss' : Iss S Op} {r n : Nat} (h : ∀ j < n, iss ⟨r, j⟩ = iss' ⟨r, j⟩) :
    addCount D iss r n = addCount D iss' r n := by
  induction n with
  | zero => rfl
  | succ n ih =>
    rw [addCount_succ, addCount_succ, ih (fun j hj => h j (by omega))]
    have : isAdd D iss ⟨r, n⟩ = isAdd D iss' ⟨r, n⟩ := by unfold isAdd; rw [h n (by omega)]
    rw [this]

/-- the dot of an add event -/
def dotOf (iss : Iss S Op) (e : Ev) : Dot := ⟨e.rid, addCount D iss e.rid e.idx + 1⟩

theorem dotOf_inj {iss : Iss S Op} {e f : Ev} (he : isAdd D iss e = true) (hf : isAdd D iss f = true)
    (h : dotOf D iss e = dotOf D iss f) : e = f := by
  obtain ⟨r, i⟩ := e
  obtain ⟨r', j⟩ := f
  simp only [dotOf, Dot.mk.injEq] at h
  obtain ⟨rfl, h⟩ := h
  rcases Nat.lt_trichotomy i j with hl | rfl | hl
  · have h1 := addCount_mono D iss r (show i + 1 ≤ j by omega)
    rw [addCount_succ, he] at h1; simp only [if_true] at h1; omega
  · rfl
  · have h1 := addCount_mono D iss r (show j + 1 ≤ i by omega)
    rw [addCount_succ, hf] at h1; simp only [if_true] at h1; omega

/-- the add at `e` is not covered by a received remove of `k` -/
def Survives (iss : Iss S Op) (seen : Set Ev) (k : K) (e : Ev) : Prop :=
  e ∈ seen ∧ (∃ i, iss e = some i ∧ D.kind i.op = .add k) ∧
  ∀ f ∈ seen, ∀ i, iss f = some i → D.kind i.op = .rem k → e ∉ i.past

structure dsInv (iss : Iss S Op) (c : Copy S) : Prop where
  cloud : (D.ctx c.state).cloud = []
  clock : ∀ r, ∃ n, (∀ j, (⟨r, j⟩ : Ev) ∈ c.seen ↔ j < n) ∧
    (D.ctx c.state).clock.get r = addCount D iss r n
  dots : ∀ k d, d ∈ D.dots c.state k ↔ ∃ e, Survives D iss c.seen k e ∧ d = dotOf D iss e

theorem survives_isAdd {iss : Iss S Op} {seen : Set Ev} {k : K} {e : Ev}
    (h : Survives D iss seen k e) : isAdd D iss e = true := by
  obtain ⟨_, ⟨i, hi, hk⟩, _⟩ := h
  simp [isAdd, hi, hk]

theorem dsInv.hasSeen {iss : Iss S Op} {c : Copy S} (h : dsInv D iss c) {e : Ev}
    (he : isAdd D iss e = true) : (D.ctx c.state).hasSeen (dotOf D iss e) = true ↔ e ∈ c.seen := by
  rw [DotContext.hasSeen_iff, h.cloud]
  obtain ⟨r, i⟩ := e
  obtain ⟨n, hn, hc⟩ := h.clock r
  simp only [dotOf, List.not_mem_nil, or_false, hc, hn]
  constructor
  · intro h1
    by_contra hlt
    have := addCount_mono D iss r (show n ≤ i by omega)
    omega
  · intro hlt
    have := addCount_mono D iss r (show i + 1 ≤ n by omega)
    rw [addCount_succ, he] at this
    simpa using this

theorem dotOf_add_stable {iss : Iss S Op} {c : Copy S} (g : Good iss c) {e x : Ev} {i : Issue S Op}
    (he : iss e = none) (hx : x ∈ c.seen) : dotOf D (iss.add e i) x = dotOf D iss x := by
  simp only [dotOf, Dot.mk.injEq, true_and, Nat.add_right_cancel_iff]
  apply addCount_congr
  intro j hj
  rw [Iss.add_ne]
  rintro rfl
  exact g.not_mem he (g.down _ _ _ hx hj)

theorem dotStore_inv {w} (h : Reachable T w) : WInv T (dsInv D) (fun r s => D.rid s = r) w := by
  apply reach_inv _ _ _ _ _ _ _ h
  · intro r
    refine ⟨by simp [D.init_ctx, DotContext.new], ?_, ?_⟩
    · intro r'; exact ⟨0, by simp, by simp [D.init_ctx, DotContext.new, addCount]⟩
    · intro k d; simp [D.init_dots, Survives]
  · intro r; exact D.init_rid r
  · -- monotonicity
    intro iss e i c hist g he hI
    have hs : ∀ x ∈ c.seen, (iss.add e i) x = iss x := by
      intro x hx; rw [Iss.add_ne]; rintro rfl; exact g.not_mem he hx
    have hsurv : ∀ k x, Survives D (iss.add e i) c.seen k x ↔ Survives D iss c.seen k x := by
      intro k x
      constructor
      · rintro ⟨h1, ⟨i', h2, h3⟩, h4⟩
        exact ⟨h1, ⟨i', by rw [← hs x h1]; exact h2, h3⟩,
          fun f hf i'' hi'' => h4 f hf i'' (by rw [hs f hf]; exact hi'')⟩
      · rintro ⟨h1, ⟨i', h2, h3⟩, h4⟩
        exact ⟨h1, ⟨i', by rw [hs x h1]; exact h2, h3⟩,
          fun f hf i'' hi'' => h4 f hf i'' (by rw [← hs f hf]; exact hi'')⟩
    refine ⟨hI.cloud, ?_, ?_⟩
    · intro r
      obtain ⟨n, hn, hc⟩ := hI.clock r
      refine ⟨n, hn, ?_⟩
      rw [hc]
      apply addCount_congr
      intro j hj
      rw [hs _ ((hn j).2 hj)]
    · intro k d
      rw [hI.dots]
      constructor
      · rintro ⟨x, h1, rfl⟩
        exact ⟨x, (hsurv k x).2 h1, (dotOf_add_stable D g he h1.1).symm⟩
      · rintro ⟨x, h1, rfl⟩
        have := (hsurv k x).1 h1
        exact ⟨x, this, dotOf_add_stable D g he this.1⟩
  · -- local operation
    intro iss c r o n hist g own hnone _ hI hJ
    have he : iss ⟨r, n⟩ = none := hnone n (Nat.le_refl _)
    have hen : (⟨r, n⟩ : Ev) ∉ c.seen := g.not_mem he
    refine ⟨?_, by rw [D.op_rid]; exact hJ⟩
    generalize hiss : iss.add ⟨r, n⟩ ⟨o, c.state, c.seen⟩ = iss' at hI ⊢
    have hnew : iss' ⟨r, n⟩ = some ⟨o, c.state, c.seen⟩ := by rw [← hiss]; simp
    have hold : ∀ x ∈ c.seen, iss' x = iss x := by
      intro x hx; rw [← hiss, Iss.add_ne]; rintro rfl; exact hen hx
    have hclk : (D.ctx c.state).clock.get r = addCount D iss' r n := by
      obtain ⟨m, hm, hc⟩ := hI.clock r
      have : m = n := by
        rcases Nat.lt_trichotomy m n with h | h | h
        · have := (hm m).1 ((own m).2 h); omega
        · exact h
        · have := (own n).1 ((hm n).2 h); omega
      rw [hc, this]
    have hnotpast : ∀ f ∈ c.seen, ∀ i, iss' f = some i → (⟨r, n⟩ : Ev) ∉ i.past := by
      intro f hf i hi hm
      rw [hold f hf] at hi
      exact (hist f i hi).good.not_mem he hm
    have hclock : ∀ r', ∃ m, (∀ j, (⟨r', j⟩ : Ev) ∈ (insert ⟨r, n⟩ c.seen : Set Ev) ↔ j < m) ∧
        (D.ctx (T.apply o c.state)).clock.get r' = addCount D iss' r' m := by
      intro r'
      by_cases e : r' = r
      · subst e
        refine ⟨n + 1, ?_, ?_⟩
        · intro j; simp only [Set.mem_insert_iff, Ev.mk.injEq, true_and, own]; omega
        · rw [addCount_succ, D.op_ctx]
          cases hk : D.kind o with
          | add k =>
            simp only [DotContext.next, VClock.get_increment, hJ, if_true, hclk]
            simp [isAdd, hnew, hk]
          | rem k => simp [isAdd, hnew, hk, hclk]
          | other => simp [isAdd, hnew, hk, hclk]
      · obtain ⟨m, hm, hc⟩ := hI.clock r'
        refine ⟨m, ?_, ?_⟩
        · intro j; simp only [Set.mem_insert_iff, Ev.mk.injEq, e, false_and, false_or, hm]
        · rw [← hc, D.op_ctx]
          cases hk : D.kind o with
          | add k => simp only [DotContext.next, VClock.get_increment, hJ, e, if_false]
          | rem k => rfl
          | other => rfl
    refine ⟨?_, hclock, ?_⟩
    · rw [D.op_ctx]
      cases hk : D.kind o with
      | add k => simp only [DotContext.next]; exact hI.cloud
      | rem k => exact hI.cloud
      | other => exact hI.cloud
    · intro k d
      rw [D.op_dots]
      cases hk : D.kind o with
      | add k' =>
        simp only
        rw [hI.dots]
        constructor
        · rintro (⟨x, ⟨h1, h2, h3⟩, rfl⟩ | ⟨rfl, rfl⟩)
          · refine ⟨x, ⟨Set.mem_insert_of_mem _ h1, h2, ?_⟩, rfl⟩
            intro f hf i hi hr
            rcases Set.mem_insert_iff.1 hf with rfl | hf
            · rw [hnew] at hi; injection hi with hi; subst hi
              rw [hk] at hr; cases hr
            · exact h3 f hf i hi hr
          · refine ⟨⟨r, n⟩, ⟨Set.mem_insert _ _, ⟨_, hnew, hk⟩, ?_⟩, ?_⟩
            · intro f hf i hi hr
              rcases Set.mem_insert_iff.1 hf with rfl | hf
              · rw [hnew] at hi; injection hi with hi; subst hi; exact hen
              · exact hnotpast f hf i hi
            · simp only [DotContext.next, dotOf, hJ, VClock.incrementVal, Dot.mk.injEq, true_and,
                Nat.add_right_cancel_iff]
              exact hclk
        · rintro ⟨x, ⟨h1, ⟨i, h2, h2'⟩, h3⟩, rfl⟩
          rcases Set.mem_insert_iff.1 h1 with rfl | h1
          · right
            rw [hnew] at h2; injection h2 with h2; subst h2
            rw [hk] at h2'; injection h2' with h2'
            refine ⟨h2'.symm, ?_⟩
            simp only [DotContext.next, dotOf, hJ, VClock.incrementVal, Dot.mk.injEq, true_and,
                Nat.add_right_cancel_iff]
            exact hclk.symm
          · left
            exact ⟨x, ⟨h1, ⟨i, h2, h2'⟩, fun f hf i hi hr => h3 f (Set.mem_insert_of_mem _ hf) i hi hr⟩, rfl⟩
      | rem k' =>
        simp only
        rw [hI.dots]
        constructor
        · rintro ⟨hne, x, ⟨h1, h2, h3⟩, rfl⟩
          refine ⟨x, ⟨Set.mem_insert_of_mem _ h1, h2, ?_⟩, rfl⟩
          intro f hf i hi hr
          rcases Set.mem_insert_iff.1 hf with rfl | hf
          · rw [hnew] at hi; injection hi with hi; subst hi
            rw [hk] at hr; injection hr with hr; exact absurd hr.symm hne
          · exact h3 f hf i hi hr
        · rintro ⟨x, ⟨h1, ⟨i, h2, h2'⟩, h3⟩, rfl⟩
          rcases Set.mem_insert_iff.1 h1 with rfl | h1
          · rw [hnew] at h2; injection h2 with h2; subst h2
            rw [hk] at h2'; cases h2'
          · refine ⟨?_, x, ⟨h1, ⟨i, h2, h2'⟩, fun f hf i hi hr => h3 f (Set.mem_insert_of_mem _ hf) i hi hr⟩, rfl⟩
            rintro rfl
            exact h3 ⟨r, n⟩ (Set.mem_insert _ _) _ hnew hk h1
      | other =>
        simp only
        rw [hI.dots]
        constructor
        · rintro ⟨x, ⟨h1, h2, h3⟩, rfl⟩
          refine ⟨x, ⟨Set.mem_insert_of_mem _ h1, h2, ?_⟩, rfl⟩
          intro f hf i hi hr
          rcases Set.mem_insert_iff.1 hf with rfl | hf
          · rw [hnew] at hi; injection hi with hi; subst hi
            rw [hk] at hr; cases hr
          · exact h3 f hf i hi hr
        · rintro ⟨x, ⟨h1, ⟨i, h2, h2'⟩, h3⟩, rfl⟩
          rcases Set.mem_insert_iff.1 h1 with rfl | h1
          · rw [hnew] at h2; injection h2 with h2; subst h2
            rw [hk] at h2'; cases h2'
          · exact ⟨x, ⟨h1, ⟨i, h2, h2'⟩, fun f hf i hi hr => h3 f (Set.mem_insert_of_mem _ hf) i hi hr⟩, rfl⟩
  · -- merge
    intro iss c d r hist gc gd hc hd hJ
    refine ⟨⟨?_, ?_, ?_⟩, by rw [D.merge_rid]; exact hJ⟩
    · rw [D.merge_ctx, DotContext.merge, hd.cloud]
      simp [DotContext.compact, hc.cloud]
    · intro r'
      obtain ⟨n, hn, en⟩ := hc.clock r'
      obtain ⟨m, hm, em⟩ := hd.clock r'
      refine ⟨max n m, ?_, ?_⟩
      · intro j; simp only [Set.mem_union, hn, hm]; omega
      · rw [D.merge_ctx, DotContext.merge, hd.cloud]
        simp only [List.foldl_nil, DotContext.compact, hc.cloud, List.map_nil, VClock.get_merge, en, em]
        rcases Nat.le_total n m with h | h
        · have := addCount_mono D iss r' h
          rw [Nat.max_eq_right h, Nat.max_eq_right this]
        · have := addCount_mono D iss r' h
          rw [Nat.max_eq_left h, Nat.max_eq_left this]
    · intro k dt
      rw [D.merge_dots]
      -- an add seen on one side and dropped by the other is covered by a remove there
      have cross : ∀ (a b : Copy S), Good iss a → Good iss b → dsInv D iss a → dsInv D iss b → ∀ e,
          Survives D iss a.seen k e →
          (((D.ctx b.state).hasSeen (dotOf D iss e) = false ∨ dotOf D iss e ∈ D.dots b.state k) ↔
            ∀ f ∈ b.seen, ∀ i, iss f = some i → D.kind i.op = .rem k → e ∉ i.past) := by
        intro a b ga gb ha hb e hs
        have hadd := survives_isAdd D hs
        constructor
        · rintro (h1 | h1)
          · intro f hf i hi _ hm
            rw [← Bool.not_eq_true, hb.hasSeen D hadd] at h1
            obtain ⟨i', hi', hsub⟩ := gb.issued f hf
            rw [hi] at hi'; injection hi' with hi'; subst hi'
            exact h1 (hsub hm)
          · obtain ⟨x, hx, hdx⟩ := (hb.dots k _).1 h1
            have := dotOf_inj D hadd (survives_isAdd D hx) hdx
            subst this
            exact hx.2.2
        · intro h1
          by_cases hseen : e ∈ b.seen
          · right; rw [hb.dots]; exact ⟨e, ⟨hseen, hs.2.1, h1⟩, rfl⟩
          · left; rw [← Bool.not_eq_true, hb.hasSeen D hadd]; exact hseen
      constructor
      · rintro (⟨h1, h2⟩ | ⟨h1, h2⟩)
        · obtain ⟨e, he, rfl⟩ := (hc.dots k _).1 h1
          have := (cross c d gc gd hc hd e he).1 h2
          refine ⟨e, ⟨Or.inl he.1, he.2.1, ?_⟩, rfl⟩
          rintro f (hf | hf) i hi hr
          · exact he.2.2 f hf i hi hr
          · exact this f hf i hi hr
        · obtain ⟨e, he, rfl⟩ := (hd.dots k _).1 h1
          have := (cross d c gd gc hd hc e he).1 h2
          refine ⟨e, ⟨Or.inr he.1, he.2.1, ?_⟩, rfl⟩
          rintro f (hf | hf) i hi hr
          · exact this f hf i hi hr
          · exact he.2.2 f hf i hi hr
      · rintro ⟨e, ⟨h1 | h1, h2, h3⟩, rfl⟩
        · left
          have hs : Survives D iss c.seen k e := ⟨h1, h2, fun f hf => h3 f (Or.inl hf)⟩
          exact ⟨(hc.dots k _).2 ⟨e, hs, rfl⟩, (cross c d gc gd hc hd e hs).2 (fun f hf => h3 f (Or.inr hf))⟩
        · right
          have hs : Survives D iss d.seen k e := ⟨h1, h2, fun f hf => h3 f (Or.inr hf)⟩
          exact ⟨(hd.dots k _).2 ⟨e, hs, rfl⟩, (cross d c gd gc hd hc e hs).2 (fun f hf => h3 f (Or.inl hf))⟩

end

def SetOp.kind {T : Type} : SetOp T → Kind T
  | .add x => .add x
  | .remove x => .rem x

def orsetStore {T : Type} [DecidableEq T] : DotStore (ORSet.rdt (T := T) addWins) T where
  dots := ORSet.dots
  ctx := ORSet.context
  rid := ORSet.replicaId
  kind := SetOp.kind
  init_dots := fun r k => rfl
  init_ctx := fun r => rfl
  init_rid := fun r => rfl
  op_rid := by intro o s; cases o <;> rfl
  op_ctx := by intro o s; cases o <;> rfl
  op_dots := by
    intro o s k d
    cases o with
    | add x => exact ORSet.dots_add s x k d
    | remove x => exact ORSet.dots_remove s x k d
  merge_rid := fun a b => rfl
  merge_ctx := fun a b => rfl
  merge_dots := by
    intro a b k d
    show d ∈ (a.merge addWins b).dots k ↔ _
    rw [ORSet.dots_merge, ORSet.mem_mergeDots_addWins]; rfl

def MapOp.kind {K V : Type} : MapOp K V → Kind K
  | .update k _ => .add k
  | .modify _ _ => .other
  | .remove k => .rem k

theorem ORMap.modify_same {K V : Type} [DecidableEq K] (k : K) (f : V → V) (m : ORMap K V) :
    (m.modify k f).keys = m.keys ∧ (m.modify k f).context = m.context ∧
    (m.modify k f).replicaId = m.replicaId := by
  simp only [ORMap.modify]
  split
  · split <;> exact ⟨rfl, rfl, rfl⟩
  · exact ⟨rfl, rfl, rfl⟩

def ormapStore {K V : Type} [DecidableEq K] (vm : V → V → V) (dv : V) :
    DotStore (ORMap.rdt (K := K) vm dv) K where
  dots := ORMap.dots
  ctx := ORMap.context
  rid := ORMap.replicaId
  kind := MapOp.kind
  init_dots := fun r k => rfl
  init_ctx := fun r => rfl
  init_rid := fun r => rfl
  op_rid := by
    intro o s
    cases o with
    | update k f => rfl
    | modify k f => exact (ORMap.modify_same k f s).2.2
    | remove k => rfl
  op_ctx := by
    intro o s
    cases o with
    | update k f => rfl
    | modify k f => exact (ORMap.modify_same k f s).2.1
    | remove k => rfl
  op_dots := by
    intro o s k d
    cases o with
    | update x f => exact ORMap.dots_update dv s x k f d
    | modify x f =>
      simp only [MapOp.kind]
      show d ∈ (s.modify x f).keys.getD k [] ↔ _
      rw [(ORMap.modify_same x f s).1]; rfl
    | remove x => exact ORMap.dots_remove s x k d
  merge_rid := fun a b => rfl
  merge_ctx := fun a b => rfl
  merge_dots := by
    intro a b k d
    show d ∈ (a.merge vm dv b).dots k ↔ _
    rw [ORMap.dots_merge]
    tauto

end Verif.Crdt
