import Verif.Proof.DiscSpec
/-!
# Lemmas about the discrimination tree
-/

namespace Verif.Proof

/-! ### Skeletons -/

/-- What is left of a pattern in its keys. -/
inductive Skel where
  | star
  | node (s : List Char) (args : List Skel)

mutual
/-- Preorder keys. -/
def flat : Skel → List Key
  | .star => [.star]
  | .node s as => .sym s as.length :: flats as

/-- The same for a list. -/
def flats : List Skel → List Key
  | [] => []
  | a :: as => flat a ++ flats as
end

mutual
/-- Agreement outside stars. -/
def SA : Skel → Skel → Prop
  | .star, _ => True
  | .node _ _, .star => True
  | .node s as, .node t bs => s = t ∧ SAs as bs

/-- The same for lists. -/
def SAs : List Skel → List Skel → Prop
  | [], [] => True
  | a :: as, b :: bs => SA a b ∧ SAs as bs
  | [], _ :: _ => False
  | _ :: _, [] => False
end

theorem flats_append (as bs : List Skel) : flats (as ++ bs) = flats as ++ flats bs := by
  induction as with
  | nil => rfl
  | cons a as ih => simp [flats, ih]

theorem flats_node (s : List Char) (as rest : List Skel) :
    flats (.node s as :: rest) = .sym s as.length :: flats (as ++ rest) := by
  rw [flats, flat, flats_append]; rfl

theorem jump_flats : ∀ (ps rest : List Skel), jumpKeys ps.length (flats (ps ++ rest)) = some (flats rest) := by
  intro ps rest
  generalize hn : (flats (ps ++ rest)).length = n
  induction n using Nat.strongRecOn generalizing ps with
  | _ n ih =>
    cases ps with
    | nil => simp [jumpKeys]
    | cons p ps =>
      cases p with
      | star =>
        rw [List.cons_append, flats, flat, List.length_cons, List.singleton_append, jumpKeys]
        exact ih _ (by rw [← hn]; simp [flats, flat]) ps rfl
      | node s as =>
        rw [List.cons_append, flats_node, List.length_cons, jumpKeys, ← List.append_assoc]
        have := ih _ (by rw [← hn, List.cons_append, flats_node, ← List.append_assoc]; simp) (as ++ ps) rfl
        rwa [List.length_append] at this

theorem jump_one (p : Skel) (rest : List Skel) : jumpKeys 1 (flats (p :: rest)) = some (flats rest) :=
  jump_flats [p] rest

theorem SAs_length : ∀ {as bs : List Skel}, SAs as bs → as.length = bs.length
  | [], [], _ => rfl
  | _ :: _, _ :: _, h => by simp [SAs_length h.2]
  | [], _ :: _, h => h.elim
  | _ :: _, [], h => h.elim

theorem SAs_append : ∀ {as bs ps qs : List Skel}, as.length = bs.length →
    (SAs (as ++ ps) (bs ++ qs) ↔ SAs as bs ∧ SAs ps qs)
  | [], [], _, _, _ => by simp [SAs]
  | a :: as, b :: bs, ps, qs, h => by
    simp [SAs, SAs_append (as := as) (bs := bs) (ps := ps) (qs := qs) (by simpa using h), and_assoc]
  | [], _ :: _, _, _, h => by simp at h
  | _ :: _, [], _, _, h => by simp at h

/-- Retrieval seen from one stored key sequence. -/
def alK : Nat → List Key → List Key → Bool
  | 0, ps, _ => ps.isEmpty
  | n + 1, ps, ks => match ks with
    | [] => ps.isEmpty
    | .sym s a :: ks' => match ps with
      | [] => false
      | .star :: ps' => match jumpKeys 1 (.sym s a :: ks') with
        | some rest => alK n ps' rest
        | none => false
      | .sym t b :: ps' => if Key.sym t b = .sym s a then alK n ps' ks' else false
    | .star :: ks' => match jumpKeys 1 ps with
      | some ps' => alK n ps' ks'
      | none => false

theorem flats_empty {ps : List Skel} : (flats ps).isEmpty = true ↔ ps = [] := by
  cases ps with
  | nil => simp [flats]
  | cons p ps => cases p <;> simp [flats, flat]

theorem jump_length : ∀ (n : Nat) (ks rest : List Key), jumpKeys n ks = some rest → rest.length + n ≤ ks.length := by
  intro n ks
  induction ks generalizing n with
  | nil => intro rest h; cases n with
    | zero => simp only [jumpKeys, Option.some.injEq] at h; subst h; simp
    | succ n => simp [jumpKeys] at h
  | cons k ks ih => intro rest h; cases n with
    | zero => simp only [jumpKeys, Option.some.injEq] at h; subst h; simp
    | succ n => cases k with
      | star => rw [jumpKeys] at h; have := ih n rest h; simp; omega
      | sym s a => rw [jumpKeys] at h; have := ih _ rest h; simp; omega

theorem alK_iff : ∀ (n : Nat) (ps qs : List Skel), (flats qs).length ≤ n →
    (alK n (flats ps) (flats qs) = true ↔ SAs ps qs) := by
  intro n
  induction n with
  | zero =>
    intro ps qs h
    have : qs = [] := flats_empty.mp (by simpa using h)
    subst this
    rw [alK, flats_empty]
    cases ps <;> simp [SAs]
  | succ n ih =>
    intro ps qs h
    cases qs with
    | nil =>
      rw [flats, alK, flats_empty]
      cases ps <;> simp [SAs]
    | cons q qs =>
      cases q with
      | star =>
        have e : flats (.star :: qs) = .star :: flats qs := rfl
        rw [e, alK]
        rw [e] at h
        cases ps with
        | nil => simp [flats, jumpKeys, SAs]
        | cons p ps =>
          rw [jump_one]
          dsimp only
          rw [ih ps qs (by simpa using h)]
          cases p <;> simp [SAs, SA]
      | node s bs =>
        have hj := jump_one (.node s bs) qs
        rw [flats_node] at h hj ⊢
        have h1 : (flats (bs ++ qs)).length ≤ n := by simpa using h
        cases ps with
        | nil => simp [alK, flats, SAs]
        | cons p ps =>
          cases p with
          | star =>
            have e : flats (.star :: ps) = .star :: flats ps := rfl
            rw [e, alK]
            rw [hj]
            dsimp only
            have h2 := jump_length 1 _ _ hj
            rw [ih ps qs (by simp at h2; omega)]
            simp [SAs, SA]
          | node t as =>
            rw [flats_node, alK]
            by_cases hk : Key.sym t as.length = .sym s bs.length
            · rw [if_pos hk, ih _ _ h1]
              simp only [Key.sym.injEq] at hk
              rw [SAs_append hk.2]
              simp [SAs, SA, hk.1]
            · rw [if_neg hk]
              simp only [Bool.false_eq_true, false_iff]
              intro hc
              simp only [SAs, SA] at hc
              exact hk (by rw [hc.1.1, SAs_length hc.1.2])

/-! ### Stored sequences -/

mutual
/-- The key sequences of a tree with their values. -/
def paths {T : Type} : DNode T → List (List Key × T)
  | .mk cs vs => vs.map (fun v => ([], v)) ++ pathsC cs

/-- The same below the children. -/
def pathsC {T : Type} : List (Key × DNode T) → List (List Key × T)
  | [] => []
  | (k, c) :: cs => (paths c).map (fun x => (k :: x.1, x.2)) ++ pathsC cs
end

mutual
/-- The keys of the children differ, everywhere. -/
def WFN {T : Type} : DNode T → Prop
  | .mk cs _ => (cs.map (·.1)).Nodup ∧ WFC cs

/-- The same for every child. -/
def WFC {T : Type} : List (Key × DNode T) → Prop
  | [] => True
  | (_, c) :: cs => WFN c ∧ WFC cs
end

theorem updChild_keys {T : Type} (k : Key) (f : DNode T → DNode T) : ∀ cs : List (Key × DNode T),
    (updChild k f cs).map (·.1) = if k ∈ cs.map (·.1) then cs.map (·.1) else cs.map (·.1) ++ [k]
  | [] => by simp [updChild]
  | (k', n) :: cs => by
    by_cases h : k' = k
    · simp [updChild, h]
    · have hne : ¬ k = k' := fun e => h e.symm
      simp only [updChild, h, if_false, List.map_cons, updChild_keys k f cs, List.mem_cons, hne, false_or]
      split <;> simp

theorem updChild_WFC {T : Type} (k : Key) (f : DNode T → DNode T) (hf : ∀ n, WFN n → WFN (f n)) :
    ∀ cs : List (Key × DNode T), WFC cs → WFC (updChild k f cs)
  | [], _ => ⟨hf _ ⟨by simp, trivial⟩, trivial⟩
  | (k', n) :: cs, h => by
    by_cases hk : k' = k
    · rw [updChild, if_pos hk]; exact ⟨hf n h.1, h.2⟩
    · rw [updChild, if_neg hk]; exact ⟨h.1, updChild_WFC k f hf cs h.2⟩

theorem insertKeys_WFN {T : Type} (ks : List Key) (v : T) : ∀ n : DNode T, WFN n → WFN (insertKeys ks v n) := by
  induction ks with
  | nil => rintro ⟨cs, vs⟩ h; exact h
  | cons k ks ih =>
    rintro ⟨cs, vs⟩ h
    refine ⟨?_, updChild_WFC k _ ih cs h.2⟩
    rw [updChild_keys]
    split
    · exact h.1
    · rename_i hk
      rw [List.nodup_append]
      refine ⟨h.1, by simp, ?_⟩
      intro a ha b hb
      simp only [List.mem_singleton] at hb
      subst hb
      rintro rfl
      exact hk ha

theorem updChild_paths {T : Type} (k : Key) (f : DNode T → DNode T) (ks : List Key) (v : T)
    (hf : ∀ n, (paths (f n)).Perm ((ks, v) :: paths n)) : ∀ cs : List (Key × DNode T),
    (pathsC (updChild k f cs)).Perm ((k :: ks, v) :: pathsC cs)
  | [] => by
    have := (hf .empty).map (fun x => (k :: x.1, x.2))
    simpa [updChild, pathsC, paths, DNode.empty] using this
  | (k', n) :: cs => by
    by_cases hk : k' = k
    · subst hk
      rw [updChild, if_pos rfl, pathsC, pathsC]
      exact ((hf n).map (fun x => (k' :: x.1, x.2))).append_right _
    · rw [updChild, if_neg hk, pathsC, pathsC]
      exact ((updChild_paths k f ks v hf cs).append_left _).trans List.perm_middle

theorem insertKeys_paths {T : Type} (ks : List Key) (v : T) : ∀ n : DNode T,
    (paths (insertKeys ks v n)).Perm ((ks, v) :: paths n) := by
  induction ks with
  | nil =>
    rintro ⟨cs, vs⟩
    simp only [insertKeys, paths, List.map_append, List.map_cons, List.map_nil, List.append_assoc]
    exact List.perm_middle
  | cons k ks ih =>
    rintro ⟨cs, vs⟩
    simp only [insertKeys, paths]
    exact ((updChild_paths k _ ks v ih cs).append_left _).trans List.perm_middle

theorem build_spec {T : Type} (l : List (Pat × T)) : WFN (buildTree l) ∧
    (paths (buildTree l)).Perm (l.map fun x => (flattenPat x.1, x.2)) := by
  have gen : ∀ (l : List (Pat × T)) (n : DNode T), WFN n →
      WFN (l.foldl (fun n x => insertPat n x.1 x.2) n) ∧
      (paths (l.foldl (fun n x => insertPat n x.1 x.2) n)).Perm
        (paths n ++ l.map fun x => (flattenPat x.1, x.2)) := by
    intro l
    induction l with
    | nil => intro n h; simpa using h
    | cons x l ih =>
      intro n h
      obtain ⟨h1, h2⟩ := ih (insertPat n x.1 x.2) (insertKeys_WFN _ _ _ h)
      refine ⟨h1, h2.trans ?_⟩
      refine ((insertKeys_paths (flattenPat x.1) x.2 n).append_right _).trans ?_
      rw [List.map_cons]
      exact List.perm_middle.symm
  obtain ⟨h1, h2⟩ := gen l .empty ⟨by simp, trivial⟩
  exact ⟨h1, by simpa [paths, pathsC, DNode.empty, buildTree] using h2⟩

/-! ### Retrieval -/

/-- The values of the stored sequences that pass `f`. -/
def sel {T : Type} (f : List Key → Bool) (l : List (List Key × T)) : List T :=
  (l.filter fun x => f x.1).map (·.2)

theorem sel_append {T : Type} (f : List Key → Bool) (a b : List (List Key × T)) :
    sel f (a ++ b) = sel f a ++ sel f b := by simp [sel]

theorem sel_cons_map {T : Type} (f : List Key → Bool) (k : Key) (l : List (List Key × T)) :
    sel f (l.map fun x => (k :: x.1, x.2)) = sel (fun ps => f (k :: ps)) l := by
  induction l with
  | nil => rfl
  | cons x l ih =>
    simp only [sel, List.map_cons, List.filter_cons] at ih ⊢
    split
    · simp only [List.map_cons]; rw [ih]
    · exact ih

theorem sel_none {T : Type} (f : List Key → Bool) (l : List (List Key × T)) (h : ∀ x ∈ l, f x.1 = false) :
    sel f l = [] := by
  induction l with
  | nil => rfl
  | cons x l ih =>
    rw [sel, List.filter_cons, h x (by simp)]
    simpa [sel] using ih fun y hy => h y (by simp [hy])

theorem sel_all {T : Type} (f : List Key → Bool) (vs : List T) (h : f [] = true) :
    sel f (vs.map fun v => ([], v)) = vs := by
  induction vs with
  | nil => rfl
  | cons v vs ih => simp only [sel, List.map_cons, List.filter_cons, h, if_true] at ih ⊢; rw [ih]

theorem sel_congr {T : Type} {f g : List Key → Bool} (l : List (List Key × T)) (h : ∀ ps, f ps = g ps) :
    sel f l = sel g l := by simp only [sel, h]

theorem pathsC_ne {T : Type} : ∀ (cs : List (Key × DNode T)) (x : List Key × T), x ∈ pathsC cs →
    ∃ k ps, x.1 = k :: ps
  | [], x, h => by simp [pathsC] at h
  | (k, c) :: cs, x, h => by
    rw [pathsC, List.mem_append] at h
    rcases h with h | h
    · obtain ⟨y, _, rfl⟩ := List.mem_map.mp h; exact ⟨k, y.1, rfl⟩
    · exact pathsC_ne cs x h

theorem getChild_none {T : Type} {k : Key} : ∀ {cs : List (Key × DNode T)}, k ∉ cs.map (·.1) → getChild k cs = none
  | [], _ => rfl
  | (k', n) :: cs, h => by
    simp only [List.map_cons, List.mem_cons, not_or] at h
    rw [getChild, if_neg (fun e => h.1 e.symm), getChild_none h.2]

/-- The results below one child. -/
def below {T : Type} (f : List Key → Bool) (k : Key) (cs : List (Key × DNode T)) : List T :=
  match getChild k cs with
  | some c => sel (fun ps => f (k :: ps)) (paths c)
  | none => []

theorem sel_children {T : Type} (f : List Key → Bool) (k1 k2 : Key) (hne : k1 ≠ k2)
    (hf : ∀ k ps, k ≠ k1 → k ≠ k2 → f (k :: ps) = false) : ∀ cs : List (Key × DNode T),
    (cs.map (·.1)).Nodup → (sel f (pathsC cs)).Perm (below f k1 cs ++ below f k2 cs)
  | [], _ => by simp [pathsC, sel, below, getChild]
  | (k, c) :: cs, h => by
    simp only [List.map_cons, List.nodup_cons] at h
    have ih := sel_children f k1 k2 hne hf cs h.2
    rw [pathsC, sel_append, sel_cons_map]
    by_cases h1 : k = k1
    · subst h1
      have e0 : below f k cs = [] := by simp [below, getChild_none h.1]
      have e1 : below f k ((k, c) :: cs) = sel (fun ps => f (k :: ps)) (paths c) := by
        simp [below, getChild]
      have e2 : below f k2 ((k, c) :: cs) = below f k2 cs := by simp [below, getChild, hne]
      rw [e0, List.nil_append] at ih
      rw [e1, e2]
      exact ih.append_left _
    · by_cases h2 : k = k2
      · subst h2
        have e0 : below f k cs = [] := by simp [below, getChild_none h.1]
        have e1 : below f k ((k, c) :: cs) = sel (fun ps => f (k :: ps)) (paths c) := by
          simp [below, getChild]
        have e2 : below f k1 ((k, c) :: cs) = below f k1 cs := by
          simp [below, getChild, h1]
        rw [e0, List.append_nil] at ih
        rw [e1, e2]
        exact (ih.append_left _).trans List.perm_append_comm
      · have e1 : below f k1 ((k, c) :: cs) = below f k1 cs := by simp [below, getChild, h1]
        have e2 : below f k2 ((k, c) :: cs) = below f k2 cs := by simp [below, getChild, h2]
        rw [e1, e2, sel_none (fun ps => f (k :: ps)) _ (fun x _ => hf k x.1 h1 h2)]
        exact ih

mutual
theorem skip_spec {T : Type} (g : List Key → Bool) : ∀ (node : DNode T) (m : Nat),
    sel (fun ps => match jumpKeys m ps with | some r => g r | none => false) (paths node) =
      (skipNode node m).flatMap fun l => sel g (paths l)
  | .mk cs vs, 0 => by simp [skipNode, jumpKeys]
  | .mk cs vs, m + 1 => by
    rw [skipNode, paths, sel_append, sel_none _ _ (by
      intro x hx
      obtain ⟨v, _, rfl⟩ := List.mem_map.mp hx
      simp [jumpKeys]), List.nil_append]
    exact skipC_spec g cs m

theorem skipC_spec {T : Type} (g : List Key → Bool) : ∀ (cs : List (Key × DNode T)) (m : Nat),
    sel (fun ps => match jumpKeys (m + 1) ps with | some r => g r | none => false) (pathsC cs) =
      (skipChildren cs m).flatMap fun l => sel g (paths l)
  | [], m => by simp [pathsC, skipChildren, sel]
  | (k, c) :: cs, m => by
    rw [pathsC, sel_append, sel_cons_map, skipChildren, List.flatMap_append, skipC_spec g cs m]
    congr 1
    rw [← skip_spec g c _]
    refine sel_congr _ fun ps => ?_
    cases k with
    | star => simp [jumpKeys, Key.need]
    | sym s a => simp [jumpKeys, Key.need, Nat.add_comm]
end

mutual
theorem skip_WFN {T : Type} : ∀ (node : DNode T) (m : Nat), WFN node → ∀ l ∈ skipNode node m, WFN l
  | .mk cs vs, 0, h, l, hl => by
    simp only [skipNode, List.mem_singleton] at hl
    subst hl; exact h
  | .mk cs vs, m + 1, h, l, hl => by
    rw [skipNode] at hl
    exact skipC_WFN cs m h.2 l hl

theorem skipC_WFN {T : Type} : ∀ (cs : List (Key × DNode T)) (m : Nat), WFC cs → ∀ l ∈ skipChildren cs m, WFN l
  | [], m, _, l, hl => by simp [skipChildren] at hl
  | (k, c) :: cs, m, h, l, hl => by
    rw [skipChildren, List.mem_append] at hl
    rcases hl with hl | hl
    · exact skip_WFN c _ h.1 l hl
    · exact skipC_WFN cs m h.2 l hl
end

theorem getChild_WFN {T : Type} {k : Key} {c : DNode T} : ∀ {cs : List (Key × DNode T)}, WFC cs →
    getChild k cs = some c → WFN c
  | [], _, h => by simp [getChild] at h
  | (k', n) :: cs, hw, h => by
    rw [getChild] at h
    split at h
    · cases h; exact hw.1
    · exact getChild_WFN hw.2 h

theorem perm_flatMap {α β : Type} {f g : α → List β} : ∀ l : List α, (∀ a ∈ l, (f a).Perm (g a)) →
    (l.flatMap f).Perm (l.flatMap g)
  | [], _ => by simp
  | a :: l, h => by
    rw [List.flatMap_cons, List.flatMap_cons]
    exact (h a (by simp)).append (perm_flatMap l fun b hb => h b (by simp [hb]))

theorem values_sel {T : Type} (cs : List (Key × DNode T)) (vs : List T) :
    sel (fun ps => ps.isEmpty) (paths (.mk cs vs)) = vs := by
  rw [paths, sel_append, sel_all (fun ps => ps.isEmpty) vs rfl, sel_none _ (pathsC cs), List.append_nil]
  intro x hx
  obtain ⟨k, ps, e⟩ := pathsC_ne cs x hx
  rw [e]; rfl

theorem retrieve_spec {T : Type} : ∀ (n : Nat) (node : DNode T) (ks : List Key), WFN node →
    (retrieve n node ks).Perm (sel (fun ps => alK n ps ks) (paths node)) := by
  intro n
  induction n with
  | zero =>
    rintro ⟨cs, vs⟩ ks _
    simp only [retrieve, alK, values_sel, DNode.values]
    exact .refl _
  | succ n ih =>
    rintro ⟨cs, vs⟩ ks hw
    cases ks with
    | nil =>
      simp only [retrieve, alK, values_sel, DNode.values]
      exact .refl _
    | cons k ks =>
      cases k with
      | star =>
        simp only [retrieve, alK]
        rw [skip_spec (fun r => alK n r ks)]
        exact perm_flatMap _ fun l hl => ih l ks (skip_WFN _ _ hw l hl)
      | sym s a =>
        rw [paths, sel_append, sel_none _ (vs.map _) (by
          intro x hx
          obtain ⟨v, _, rfl⟩ := List.mem_map.mp hx
          simp [alK]), List.nil_append]
        refine List.Perm.trans ?_ (sel_children _ (.sym s a) .star (by intro h; cases h) (by
          intro k ps h1 h2
          cases k with
          | star => exact absurd rfl h2
          | sym t b => simp only [alK]; rw [if_neg h1]) cs hw.1).symm
        simp only [retrieve, DNode.children]
        refine List.Perm.append ?_ ?_
        · unfold below
          cases hc : getChild (.sym s a) cs with
          | none => exact .refl _
          | some c =>
            dsimp only
            refine (ih c ks (getChild_WFN hw.2 hc)).trans ?_
            rw [sel_congr (g := fun ps => alK (n + 1) (.sym s a :: ps) (.sym s a :: ks))]
            intro ps
            simp [alK]
        · unfold below
          cases hc : getChild .star cs with
          | none => exact .refl _
          | some c =>
            dsimp only
            cases hj : jumpKeys 1 (.sym s a :: ks) with
            | none =>
              rw [sel_none]
              intro x _
              simp [alK, hj]
            | some rest =>
              dsimp only
              refine (ih c rest (getChild_WFN hw.2 hc)).trans ?_
              rw [sel_congr (g := fun ps => alK (n + 1) (.star :: ps) (.sym s a :: ks))]
              intro ps
              simp [alK, hj]

/-! ### Skeletons of patterns -/

mutual
/-- The skeleton of a term. -/
def skelT : Term → Skel
  | .var _ => .star
  | .const s => .node ('c' :: ':' :: s) []
  | .bound s => .node ('b' :: ':' :: s) []
  | .fn f args => .node ('f' :: ':' :: f) (skelTs args)
  | .group args => .node ['(', ',', ')'] (skelTs args)

/-- The same for lists. -/
def skelTs : List Term → List Skel
  | [] => []
  | t :: ts => skelT t :: skelTs ts
end

theorem skelTs_length : ∀ ts, (skelTs ts).length = ts.length
  | [] => rfl
  | t :: ts => by simp [skelTs, skelTs_length ts]

mutual
theorem flattenTerm_eq : ∀ t, flattenTerm t = flat (skelT t)
  | .var _ => rfl
  | .const _ => rfl
  | .bound _ => rfl
  | .fn f args => by rw [flattenTerm, skelT, flat, skelTs_length, flattenTerms_eq args]
  | .group args => by rw [flattenTerm, skelT, flat, skelTs_length, flattenTerms_eq args]

theorem flattenTerms_eq : ∀ ts, flattenTerms ts = flats (skelTs ts)
  | [] => rfl
  | t :: ts => by rw [flattenTerms, skelTs, flats, flattenTerm_eq t, flattenTerms_eq ts]
end

/-- The skeleton of a formula. -/
def skelE : QExpr → Skel
  | .pred p args _ => .node ('p' :: ':' :: p) (skelTs args)
  | .ident l r => .node ['='] [skelT l, skelT r]
  | .atom s => .node ('a' :: ':' :: s) []
  | .bin .and l r => .node ['∧'] [skelE l, skelE r]
  | .bin .or l r => .node ['∨'] [skelE l, skelE r]
  | .bin .implies l r => .node ['→'] [skelE l, skelE r]
  | .bin .iff l r => .node ['↔'] [skelE l, skelE r]
  | .un .not p => .node ['¬'] [skelE p]
  | .bin (.temporal _) _ _ => .star
  | .un (.temporal _) _ => .star
  | .quant _ _ _ => .star

theorem flattenExpr_eq : ∀ e, flattenExpr e = flat (skelE e)
  | .pred p args _ => by rw [flattenExpr, skelE, flat, skelTs_length, flattenTerms_eq]
  | .ident l r => by simp [flattenExpr, skelE, flat, flats, flattenTerm_eq]
  | .atom s => rfl
  | .bin .and l r => by simp [flattenExpr, skelE, flat, flats, flattenExpr_eq l, flattenExpr_eq r]
  | .bin .or l r => by simp [flattenExpr, skelE, flat, flats, flattenExpr_eq l, flattenExpr_eq r]
  | .bin .implies l r => by simp [flattenExpr, skelE, flat, flats, flattenExpr_eq l, flattenExpr_eq r]
  | .bin .iff l r => by simp [flattenExpr, skelE, flat, flats, flattenExpr_eq l, flattenExpr_eq r]
  | .un .not p => by simp [flattenExpr, skelE, flat, flats, flattenExpr_eq p]
  | .bin (.temporal _) _ _ => rfl
  | .un (.temporal _) _ => rfl
  | .quant _ _ _ => rfl

mutual
theorem alignT_iff : ∀ a b, AlignT a b ↔ SA (skelT a) (skelT b)
  | .var _, b => by simp [AlignT, skelT, SA]
  | .const a, b => by cases b <;> simp [AlignT, skelT, SA, SAs]
  | .bound a, b => by cases b <;> simp [AlignT, skelT, SA, SAs]
  | .fn f as, b => by
    cases b with
    | fn g bs => simp [AlignT, skelT, SA, alignTs_iff as bs]
    | _ => simp [AlignT, skelT, SA]
  | .group as, b => by
    cases b with
    | group bs => simp [AlignT, skelT, SA, alignTs_iff as bs]
    | _ => simp [AlignT, skelT, SA]

theorem alignTs_iff : ∀ as bs, AlignTs as bs ↔ SAs (skelTs as) (skelTs bs)
  | [], [] => by simp [AlignTs, skelTs, SAs]
  | a :: as, b :: bs => by simp [AlignTs, skelTs, SAs, alignT_iff a b, alignTs_iff as bs]
  | [], _ :: _ => by simp [AlignTs, skelTs, SAs]
  | _ :: _, [] => by simp [AlignTs, skelTs, SAs]
end

theorem SA_star (a : Skel) : SA a .star := by cases a <;> simp [SA]

theorem opaque_skel {e : QExpr} : Opaque e ↔ skelE e = .star := by
  cases e with
  | bin op a b => cases op <;> simp [Opaque, skelE]
  | un op a => cases op <;> simp [Opaque, skelE]
  | _ => simp [Opaque, skelE]

theorem alignE_iff : ∀ a b, AlignE a b ↔ SA (skelE a) (skelE b) := by
  intro a
  induction a with
  | pred p as w =>
    intro b
    cases b with
    | bin op c d => cases op <;> simp [AlignE, Opaque, skelE, SA]
    | un op c => cases op <;> simp [AlignE, Opaque, skelE, SA]
    | pred q bs w' =>
      simp only [AlignE, Opaque, skelE, SA, alignTs_iff, false_or, QExpr.pred.injEq]
      constructor
      · rintro ⟨bs', w'', ⟨h1, rfl, rfl⟩, h2⟩; exact ⟨by rw [h1], h2⟩
      · rintro ⟨h1, h2⟩
        exact ⟨bs, w', ⟨by simpa using h1.symm, rfl, rfl⟩, h2⟩
    | _ => simp [AlignE, Opaque, skelE, SA]
  | ident t1 t2 =>
    intro b
    cases b with
    | bin op c d => cases op <;> simp [AlignE, Opaque, skelE, SA]
    | un op c => cases op <;> simp [AlignE, Opaque, skelE, SA]
    | ident u1 u2 => simp [AlignE, Opaque, skelE, SA, SAs, alignT_iff]
    | _ => simp [AlignE, Opaque, skelE, SA]
  | atom p =>
    intro b
    cases b with
    | bin op c d => cases op <;> simp [AlignE, Opaque, skelE, SA]
    | un op c => cases op <;> simp [AlignE, Opaque, skelE, SA]
    | atom q => simp [AlignE, Opaque, skelE, SA, SAs, eq_comm]
    | _ => simp [AlignE, Opaque, skelE, SA]
  | bin op a1 a2 ih1 ih2 =>
    intro b
    cases b with
    | bin op' c d =>
      cases op <;> cases op' <;> simp [AlignE, Opaque, skelE, SA, SAs, ih1, ih2]
    | un op' c => cases op <;> cases op' <;> simp [AlignE, Opaque, skelE, SA]
    | _ => cases op <;> simp [AlignE, Opaque, skelE, SA]
  | un op a1 ih =>
    intro b
    cases b with
    | bin op' c d => cases op <;> cases op' <;> simp [AlignE, Opaque, skelE, SA]
    | un op' c => cases op <;> cases op' <;> simp [AlignE, Opaque, skelE, SA, SAs, ih]
    | _ => cases op <;> simp [AlignE, Opaque, skelE, SA]
  | quant q x b _ => intro b; simp [AlignE, skelE, SA]

/-- The skeleton of a pattern. -/
def skelP : Pat → Skel
  | .term t => skelT t
  | .expr e => skelE e

theorem flattenPat_eq (p : Pat) : flattenPat p = flats [skelP p] := by
  cases p <;> simp [flattenPat, skelP, flats, flattenTerm_eq, flattenExpr_eq]

theorem align_iff (p q : Pat) : Align p q ↔ SA (skelP p) (skelP q) := by
  cases p with
  | term a =>
    cases q with
    | term b => exact alignT_iff a b
    | expr b =>
      simp only [Align, skelP, opaque_skel]
      constructor
      · rintro (⟨v, rfl⟩ | h)
        · simp [skelT, SA]
        · rw [h]; exact SA_star _
      · intro h
        cases a with
        | var v => exact .inl ⟨v, rfl⟩
        | _ =>
          right
          cases b with
          | bin op c d => cases op <;> simp [skelT, skelE, SA] at h ⊢
          | un op c => cases op <;> simp [skelT, skelE, SA] at h ⊢
          | quant _ _ _ => rfl
          | _ => simp [skelT, skelE, SA] at h
  | expr a =>
    cases q with
    | expr b => exact alignE_iff a b
    | term b =>
      simp only [Align, skelP, opaque_skel]
      constructor
      · rintro (h | ⟨v, rfl⟩)
        · rw [h]; simp [SA]
        · exact SA_star _
      · intro h
        cases b with
        | var v => exact .inr ⟨v, rfl⟩
        | _ =>
          left
          cases a with
          | bin op c d => cases op <;> simp [skelT, skelE, SA] at h ⊢
          | un op c => cases op <;> simp [skelT, skelE, SA] at h ⊢
          | quant _ _ _ => rfl
          | _ => simp [skelT, skelE, SA] at h

end Verif.Proof
