import Verif.Crdt.OrSetLemmas
import Mathlib.Order.Bounds.Basic
import Mathlib.Order.Lattice
import Mathlib.Order.BoundedOrder.Lattice
namespace Verif.Crdt.ORMap
variable {K V : Type} [DecidableEq K]

theorem mergeValues_get (vm : V → V → V) (dv : V) (a b : HMap K V) (k : K) :
    (mergeValues vm dv a b).get? k =
      match a.get? k, b.get? k with
      | none, none => none
      | some v, none => some v
      | none, some w => some (vm dv w)
      | some v, some w => some (vm v w) := by
  rw [mergeValues, HMap.fold_upsert_get? b a dv (fun v ov => vm v ov)]
  cases ha : a.get? k <;> cases hb : b.get? k <;> simp [HMap.getD, ha]

/-- the stored value of a key, whether or not the key is present -/
def val (dv : V) (m : ORMap K V) (k : K) : V := m.values.getD k dv

/-- present keys have a value -/
theorem values_inv {vm : V → V → V} {dv : V} {w} (h : Reachable (ORMap.rdt (K := K) vm dv) w) :
    WInv (ORMap.rdt (K := K) vm dv)
      (fun _ c => ∀ k, (∃ d, d ∈ c.state.dots k) → (c.state.values.get? k).isSome) (fun _ _ => True) w := by
  apply reach_inv _ _ _ _ _ _ _ h
  · intro r k ⟨d, hd⟩
    simp [rdt, new, dots, HMap.getD, HMap.empty, HMap.get?, HMap.lookup] at hd
  · intro r; trivial
  · intro iss e i c _ _ _ hI; exact hI
  · intro iss c r o n _ _ _ _ _ hI _
    refine ⟨?_, trivial⟩
    rintro k ⟨d, hd⟩
    cases o with
    | update x f =>
      have hd' := (dots_update dv c.state x k f d).1 hd
      show ((c.state.values.upsert x dv f).get? k).isSome
      rw [HMap.get?_upsert]
      split
      · rfl
      · next hne =>
        rcases hd' with hd' | hd'
        · exact hI k ⟨d, hd'⟩
        · exact absurd hd'.1 hne
    | modify x f =>
      have hk : (c.state.modify x f).keys = c.state.keys := (modify_same x f c.state).1
      have hd' : d ∈ c.state.dots k := by
        have : d ∈ (c.state.modify x f).dots k := hd
        rw [dots, hk] at this; exact this
      have h0 := hI k ⟨d, hd'⟩
      show ((c.state.modify x f).values.get? k).isSome
      rw [modify]
      split
      · split
        · rw [HMap.get?_insert]; split
          · rfl
          · exact h0
        · exact h0
      · exact h0
    | remove x =>
      have hd' := (dots_remove c.state x k d).1 hd
      exact hI k ⟨d, hd'.2⟩
  · intro iss c d r _ _ _ hc hd _
    refine ⟨?_, trivial⟩
    rintro k ⟨dt, hdt⟩
    have hdt' := (dots_merge vm dv c.state d.state k dt).1 hdt
    show ((mergeValues vm dv c.state.values d.state.values).get? k).isSome
    rw [mergeValues_get]
    rcases hdt'.1 with h1 | h1
    · have := hc k ⟨dt, h1⟩
      cases ha : c.state.values.get? k <;> cases hb : d.state.values.get? k <;> simp_all
    · have := hd k ⟨dt, h1.1⟩
      cases ha : c.state.values.get? k <;> cases hb : d.state.values.get? k <;> simp_all

/-- an operation that only moves values up -/
def Inflationary [Preorder V] : MapOp K V → Prop
  | .update _ f => ∀ v, v ≤ f v
  | .modify _ f => ∀ v, v ≤ f v
  | .remove _ => True

variable [SemilatticeSup V] [OrderBot V]

theorem val_merge (a b : ORMap K V) (k : K) :
    val ⊥ (a.merge (· ⊔ ·) ⊥ b) k = val ⊥ a k ⊔ val ⊥ b k := by
  simp only [val, merge, HMap.getD, mergeValues_get]
  cases a.values.get? k <;> cases b.values.get? k <;> simp

theorem val_le_apply (o : MapOp K V) (ho : Inflationary o) (m : ORMap K V) (k : K) :
    val ⊥ m k ≤ val ⊥ (apply ⊥ o m) k := by
  cases o with
  | update x f =>
    simp only [val, apply, update, HMap.getD_upsert]
    split
    · next h => subst h; exact ho _
    · exact le_refl _
  | modify x f =>
    simp only [val, apply, modify]
    split
    · split
      · next v hv =>
        rw [HMap.getD_insert]
        split
        · next h => subst h; simp only [HMap.getD, hv]; exact ho _
        · exact le_refl _
      · exact le_refl _
    · exact le_refl _
  | remove x => exact le_refl _

/-- the values the received operations left behind at a key -/
def Posts (iss : Iss (ORMap K V) (MapOp K V)) (seen : Set Ev) (k : K) : Set V :=
  {v | ∃ e ∈ seen, ∃ i, iss e = some i ∧ v = val ⊥ (apply ⊥ i.op i.pre) k}

def valInv (iss : Iss (ORMap K V) (MapOp K V)) (c : Copy (ORMap K V)) : Prop :=
  (∀ e ∈ c.seen, ∀ i, iss e = some i → Inflationary i.op) →
    ∀ k, IsLUB (Posts iss c.seen k) (val ⊥ c.state k)

theorem val_inv {w} (h : Reachable (ORMap.rdt (K := K) (V := V) (· ⊔ ·) ⊥) w) :
    WInv (ORMap.rdt (K := K) (V := V) (· ⊔ ·) ⊥) valInv (fun _ _ => True) w := by
  apply reach_inv _ _ _ _ _ _ _ h
  · intro r _ k
    simp only [rdt, new, val, HMap.getD, HMap.empty, HMap.get?]
    simp [Posts, isLUB_empty_iff, isBot_bot, HMap.lookup]
  · intro r; trivial
  · intro iss e i c hist g he hI hinf k
    have hs : ∀ x ∈ c.seen, (iss.add e i) x = iss x := by
      intro x hx; rw [Iss.add_ne]; rintro rfl; exact g.not_mem he hx
    have hp : Posts (iss.add e i) c.seen k = Posts iss c.seen k := by
      ext v
      constructor
      · rintro ⟨x, hx, j, hj, hv⟩; exact ⟨x, hx, j, by rw [← hs x hx]; exact hj, hv⟩
      · rintro ⟨x, hx, j, hj, hv⟩; exact ⟨x, hx, j, by rw [hs x hx]; exact hj, hv⟩
    rw [hp]
    exact hI (fun x hx j hj => hinf x hx j (by rw [hs x hx]; exact hj)) k
  · intro iss c r o n hist g own hnone _ hI _
    refine ⟨?_, trivial⟩
    intro hinf k
    have hnew : (iss.add ⟨r, n⟩ ⟨o, c.state, c.seen⟩) ⟨r, n⟩ = some ⟨o, c.state, c.seen⟩ := by simp
    generalize (iss.add ⟨r, n⟩ ⟨o, c.state, c.seen⟩) = iss' at *
    have h0 := hI (fun x hx j hj => hinf x (Set.mem_insert_of_mem _ hx) j hj) k
    have ho : Inflationary o := hinf _ (Set.mem_insert _ _) _ hnew
    have hle := val_le_apply o ho c.state k
    constructor
    · rintro v ⟨x, hx, j, hj, rfl⟩
      rcases Set.mem_insert_iff.1 hx with rfl | hx
      · rw [hnew] at hj; injection hj with hj; subst hj; exact le_refl _
      · exact le_trans (h0.1 ⟨x, hx, j, hj, rfl⟩) hle
    · intro u hu
      exact hu ⟨_, Set.mem_insert _ _, _, hnew, rfl⟩
  · intro iss c d r hist gc gd hc hd _
    refine ⟨?_, trivial⟩
    intro hinf k
    have h1 := hc (fun x hx j hj => hinf x (Or.inl hx) j hj) k
    have h2 := hd (fun x hx j hj => hinf x (Or.inr hx) j hj) k
    have hp : Posts iss (c.seen ∪ d.seen) k = Posts iss c.seen k ∪ Posts iss d.seen k := by
      ext v
      constructor
      · rintro ⟨x, hx | hx, j, hj, hv⟩
        · exact Or.inl ⟨x, hx, j, hj, hv⟩
        · exact Or.inr ⟨x, hx, j, hj, hv⟩
      · rintro (⟨x, hx, j, hj, hv⟩ | ⟨x, hx, j, hj, hv⟩)
        · exact ⟨x, Or.inl hx, j, hj, hv⟩
        · exact ⟨x, Or.inr hx, j, hj, hv⟩
    show IsLUB (Posts iss (c.seen ∪ d.seen) k) (val ⊥ (c.state.merge (· ⊔ ·) ⊥ d.state) k)
    rw [hp, val_merge]
    exact h1.union h2

end Verif.Crdt.ORMap
