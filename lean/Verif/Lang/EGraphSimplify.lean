import Verif.Lang.EGraphRuleSound

/-!
# E-graph: saturation, extraction and conversion are right
-/
namespace Verif.Lang.EGraph
open Verif.UnionFind

section
variable {M : Sem}

/-! ## Saturation -/

/-- Sound, and grown from `g`. -/
def From (M : Sem) (g g' : EG) : Prop := Sound M g' ∧ Grow g g'

theorem applyRule_from {g : EG} {i cap : Nat} (hi : i < g.nodes.length) {s : SatState}
    (h : From M g s.1) {rule : Rule} (hr : RuleOk M rule) : From M g (applyRule cap i s rule).1 := by
  unfold applyRule
  split
  · exact h
  · split
    · exact h
    · have hi' : i < s.1.nodes.length := Nat.lt_of_lt_of_le hi h.2.le
      obtain ⟨k1, k2, k3⟩ := hr s.1 i h.1 hi'
      split
      · rename_i r g' e
        rw [e] at k1 k2 k3
        obtain ⟨r1, r2⟩ := k3 r rfl
        exact ⟨union_sound k1 (Nat.lt_of_lt_of_le hi' k2.le) r1 (by rw [k2.den hi']; exact r2.symm),
          (h.2.trans k2).trans (Grow.of_eq (union_nodes g' i r))⟩
      · rename_i g' e
        rw [e] at k1 k2
        exact ⟨k1, h.2.trans k2⟩

theorem satPass_from {g : EG} (h : Sound M g) (cap : Nat) {rules : List Rule}
    (hr : ∀ rule ∈ rules, RuleOk M rule) : From M g (satPass cap rules g).1 := by
  unfold satPass
  refine foldl_inv (fun s : SatState => From M g s.1) _ _ _ ⟨h, Grow.refl g⟩ ?_
  intro s i hi hs
  exact foldl_inv (fun s : SatState => From M g s.1) _ _ _ hs
    fun s rule hrule hs => applyRule_from (by simpa using hi) hs (hr rule hrule)

theorem rebuild_from {g g' : EG} (h : From M g g') (k : Nat) : From M g (g'.rebuild k) :=
  ⟨(rebuild_sound k h.1).1, h.2.trans (Grow.of_eq (rebuild_sound k h.1).2)⟩

theorem From.trans {a b c : EG} (h : From M a b) (k : From M b c) : From M a c :=
  ⟨k.1, h.2.trans k.2⟩

theorem satLoop_from (fuel cap : Nat) {rules : List Rule} (hr : ∀ rule ∈ rules, RuleOk M rule)
    (k : Nat) {g : EG} (h : Sound M g) : From M g (satLoop fuel cap rules k g) := by
  induction k generalizing g with
  | zero => exact ⟨h, Grow.refl g⟩
  | succ k ih =>
    unfold satLoop
    have h1 := rebuild_from (satPass_from h cap hr) fuel
    dsimp only
    split
    · exact h1
    · split
      · exact h1
      · exact h1.trans (ih h1.1)

theorem saturate_from (fuel iters cap : Nat) {rules : List Rule}
    (hr : ∀ rule ∈ rules, RuleOk M rule) {g : EG} (h : Sound M g) :
    From M g (saturate fuel iters cap rules g) :=
  (rebuild_from ⟨h, Grow.refl g⟩ fuel).trans (satLoop_from fuel cap hr iters (rebuild_sound fuel h).1)

/-! ## Extraction -/

/-- The representative of a class is an admissible node of it. -/
def BestOk (g : EG) (adm : ENode → Bool) (best : Best) : Prop :=
  ∀ r t rep, best.getD r none = some (t, rep) →
    rep < g.nodes.length ∧ g.find rep = r ∧ adm (g.canon rep) = true

theorem bestNode_ok {g : EG} {adm : ENode → Bool} {best : Best} (h : BestOk g adm best) {i : Nat}
    (hi : i < g.nodes.length) : BestOk g adm (bestNode g adm best i) := by
  have key : adm (g.canon i) = true → ∀ t, BestOk g adm (best.set (g.find i) (some (t, i))) := by
    intro had t r t' rep e
    rw [getD_set] at e
    split at e
    · rename_i hr
      cases e
      exact ⟨hi, hr.1, had⟩
    · exact h r t' rep e
  unfold bestNode
  split
  · rename_i had
    split
    · exact h
    · split
      · split
        · exact h
        · exact key had _
      · exact key had _
  · exact h

theorem bestLoop_ok {g : EG} {adm : ENode → Bool} (k : Nat) {best : Best} (h : BestOk g adm best) :
    BestOk g adm (bestLoop g adm k best) := by
  induction k generalizing best with
  | zero => exact h
  | succ k ih =>
    unfold bestLoop
    have := foldl_inv (BestOk g adm) (bestNode g adm) (List.range g.nodes.length) best h
      fun b a ha hb => bestNode_ok hb (by simpa using ha)
    dsimp only
    split
    · exact this
    · exact ih this

theorem best_init (g : EG) (adm : ENode → Bool) (n : Nat) : BestOk g adm (List.replicate n none) := by
  intro r t rep e
  rw [List.getD_eq_getElem?_getD, List.getElem?_replicate] at e
  split at e <;> simp at e

theorem mapM_forall {α β : Type} {f : α → Option β} {l : List α} {ks : List β}
    (h : l.mapM f = some ks) : List.Forall₂ (fun a b => f a = some b) l ks := by
  induction l generalizing ks with
  | nil => simp at h; subst h; exact .nil
  | cons a l ih =>
    rw [List.mapM_cons] at h
    cases ha : f a with
    | none => rw [ha] at h; cases h
    | some b =>
      rw [ha] at h
      cases hl : l.mapM f with
      | none => rw [hl] at h; cases h
      | some bs =>
        rw [hl] at h
        cases h
        exact .cons ha (ih hl)

/-- The operations mean what they mean in the world. -/
structure Agrees (W : World) (M : Sem) : Prop where
  P : M.P = W.P
  contains : M.contains = W.contains

/-- The admissible leaves mean what they mean in the world. -/
structure Leaves (W : World) (M : Sem) (adm : ENode → Bool) (ops : List XE) : Prop where
  var : ∀ x v, adm (.var x v) = true → M.var x v = W.vars x
  opq : ∀ j o, adm (.opaq j) = true → ops[j]? = some o → M.opq j = evalX W o

theorem rebuildNode_eval {W : World} (ha : Agrees W M) {ops : List XE} {adm : ENode → Bool}
    (hl : Leaves W M adm ops) {d : Nat → Except Err Value} {n : ENode} (hn : adm n = true)
    {kids : List XE} (hk : List.Forall₂ (fun c k => evalX W k = d c) n.children kids) {e : XE}
    (h : rebuildNode ops n kids = some e) : evalX W e = evalNode M d n := by
  unfold rebuildNode at h
  split at h <;> simp only [ENode.children] at hk
  · cases h; rfl
  · cases h; rfl
  · cases h; rfl
  · cases h; exact (hl.var _ _ hn).symm
  · exact (hl.opq _ _ hn h).symm
  · cases h
    cases hk with | cons h1 hk => cases hk with | cons h2 hk => simp only [evalX, evalNode, h1, h2, ha.P]
  · cases h
    cases hk with | cons h1 hk => simp only [evalX, evalNode, h1, ha.P]
  · cases h
    cases hk with | cons h1 hk => simp only [evalX, evalNode, h1]
  · cases h
    cases hk with | cons h1 hk => cases hk with | cons h2 hk => simp only [evalX, evalNode, h1, h2, ha.P]
  · cases h
    cases hk with | cons h1 hk => simp only [evalX, evalNode, h1]
  · cases h
    cases hk with
    | cons h1 hk => cases hk with
      | cons h2 hk => cases hk with | cons h3 hk => simp only [evalX, evalNode, h1, h2, h3]
  · cases h
    cases hk with | cons h1 hk => cases hk with
      | cons h2 hk => simp only [evalX, evalNode, h1, h2, ha.contains]
  · cases h

theorem forall₂_mem {α β : Type} {R S : α → β → Prop} {l : List α} {ks : List β}
    (h : List.Forall₂ R l ks) (hs : ∀ a ∈ l, ∀ b, R a b → S a b) : List.Forall₂ S l ks := by
  induction h with
  | nil => exact .nil
  | cons h1 _ ih => exact .cons (hs _ (by simp) _ h1) (ih fun a ha => hs a (by simp [ha]))

theorem build_eval {W : World} (ha : Agrees W M) {ops : List XE} {adm : ENode → Bool}
    (hl : Leaves W M adm ops) {g : EG} (h : Sound M g) {best : Best}
    (hb : BestOk g adm best) (k : Nat) {i : Nat} (hi : i < g.nodes.length) {e : XE}
    (he : build g best ops k i = some e) : evalX W e = den M g i := by
  induction k generalizing i e with
  | zero => cases he
  | succ k ih =>
    unfold build at he
    split at he
    · cases he
    · rename_i t rep hbr
      obtain ⟨r1, r2, r3⟩ := hb _ _ _ hbr
      obtain ⟨c1, c2, _⟩ := h.canon r1
      split at he
      · cases he
      · rename_i kids hk
        have hd : den M g rep = den M g i := h.same rep i r1 hi r2
        rw [← hd, c1]
        refine rebuildNode_eval ha hl r3 (forall₂_mem (mapM_forall hk) ?_) he
        intro c hc k' hk'
        exact ih (c2 c hc) hk'

theorem extract_eval {W : World} (ha : Agrees W M) {ops : List XE} {adm : ENode → Bool}
    (hl : Leaves W M adm ops) {g : EG} (h : Sound M g) (fuel : Nat) {i : Nat} (hi : i < g.nodes.length) {e : XE}
    (he : extract fuel g adm ops i = some e) : evalX W e = den M g i :=
  build_eval ha hl h (bestLoop_ok fuel (best_init g adm _)) fuel hi he

/-! ## Conversion -/

/-- The invariant of the conversion. -/
structure ConvOk (M : Sem) (c : Conv) : Prop where
  sound : Sound M c.eg
  pending : ∀ p ∈ c.pending, p.1 < c.eg.nodes.length ∧
    ∀ v, den M c.eg p.1 = .ok v → InRange64 p.2 v

/-- A step of the conversion that ends in a class. -/
structure Step (M : Sem) (c : Conv) (id : Nat) (c' : Conv) (r : Except Err Value) : Prop where
  ok : ConvOk M c'
  grow : Grow c.eg c'.eg
  lt : id < c'.eg.nodes.length
  den : den M c'.eg id = r

theorem ConvOk.grow {c c' : Conv} (h : ConvOk M c) (hs : Sound M c'.eg) (hg : Grow c.eg c'.eg)
    (hp : c'.pending = c.pending) : ConvOk M c' := by
  refine ⟨hs, ?_⟩
  intro p hm
  rw [hp] at hm
  obtain ⟨h1, h2⟩ := h.pending p hm
  exact ⟨Nat.lt_of_lt_of_le h1 hg.le, fun v hv => h2 v (by rw [← hg.den h1]; exact hv)⟩

theorem add_step {c : Conv} (h : ConvOk M c) {n : ENode}
    (hc : ∀ k ∈ n.children, k < c.eg.nodes.length) (hf : Fits M (EGraph.den M c.eg) n) :
    Step M c (c.add n).1 (c.add n).2 (evalNode M (EGraph.den M c.eg) n) := by
  obtain ⟨a1, a2, a3, a4⟩ := add_sound h.sound hc hf
  exact ⟨h.grow a1 a2 rfl, a2, a3, a4⟩

/-- Setting facts that hold. -/
theorem Step.onEg {c c' : Conv} {id : Nat} {r : Except Err Value} (h : Step M c id c' r)
    {f : EG → EG} (hn : (f c'.eg).nodes = c'.eg.nodes) (hs : Sound M (f c'.eg)) :
    Step M c id (c'.onEg f) r :=
  ⟨h.ok.grow hs (Grow.of_eq hn) rfl, h.grow.trans (Grow.of_eq hn), by
    show id < (f c'.eg).nodes.length
    rw [hn]; exact h.lt, by
    show EGraph.den M (f c'.eg) id = r
    rw [den_of_eq M hn]; exact h.den⟩

theorem seed_opaques (F : Nat → SiteFact) (e : XE) (stable : Bool) (r : Nat × Conv) :
    (Conv.seedFacts F e stable r).2.opaques = r.2.opaques := by
  unfold Conv.seedFacts
  dsimp only
  split
  · split <;> split <;> rfl
  · rfl

theorem opaq_opaques (c : Conv) (e : XE) (l : Bool) :
    (c.opaq e l).2.opaques = c.opaques ++ [e] := by
  unfold Conv.opaq; dsimp only; split <;> rfl

theorem noteRead_eq (c : Conv) (e : XE) : (c.noteRead e).opaques = c.opaques ∧
    (c.noteRead e).eg = c.eg ∧ (c.noteRead e).pending = c.pending := by
  unfold Conv.noteRead
  split
  · split <;> exact ⟨rfl, rfl, rfl⟩
  · exact ⟨rfl, rfl, rfl⟩

theorem noteRead_ok {c : Conv} (h : ConvOk M c) (e : XE) : ConvOk M (c.noteRead e) := by
  obtain ⟨_, e2, e3⟩ := noteRead_eq c e
  exact h.grow (by rw [e2]; exact h.sound) (Grow.of_eq (by rw [e2])) e3

theorem track_opaques (F : Nat → SiteFact) (s : Nat) (r : Nat × Conv) :
    (Conv.trackVar F s r).2.opaques = r.2.opaques := by
  unfold Conv.trackVar; dsimp only; split <;> rfl
theorem stage_opaques (F : Nat → SiteFact) (e : XE) (r : Nat × Conv) :
    (Conv.stageLen F e r).2.opaques = r.2.opaques := by
  unfold Conv.stageLen
  dsimp only
  split
  · rfl
  · split <;> rfl
theorem copy_opaques (n : Nat) (r : Nat × Conv) :
    (Conv.copyFact n r).2.opaques = r.2.opaques := by
  unfold Conv.copyFact; dsimp only; split
  · rfl
  · split <;> rfl
theorem add_opaques (c : Conv) (n : ENode) : (c.add n).2.opaques = c.opaques := rfl

theorem toNode_prefix (F : Nat → SiteFact) (e : XE) (c : Conv) :
    c.opaques <+: (Conv.toNode F e c).2.opaques := by
  induction e generalizing c with
  | num | bool | flt => simp only [Conv.toNode, seed_opaques, add_opaques]; exact List.prefix_rfl
  | var => simp only [Conv.toNode, seed_opaques, track_opaques, add_opaques]; exact List.prefix_rfl
  | bin s op a b iha ihb =>
    simp only [Conv.toNode]
    split
    · rw [seed_opaques, opaq_opaques]; exact List.prefix_append _ _
    · rw [seed_opaques, add_opaques]; exact (iha c).trans (ihb _)
  | not s a iha => simp only [Conv.toNode, seed_opaques, add_opaques]; exact iha c
  | index s a b iha ihb =>
    simp only [Conv.toNode, seed_opaques, add_opaques]
    have := iha (c.noteRead a); rw [(noteRead_eq c a).1] at this
    exact this.trans (ihb _)
  | contains s a b iha ihb =>
    simp only [Conv.toNode, seed_opaques, add_opaques]
    have := iha (c.noteRead a); rw [(noteRead_eq c a).1] at this
    exact this.trans (ihb _)
  | length s a iha =>
    simp only [Conv.toNode, seed_opaques, stage_opaques, add_opaques]
    have := iha (c.noteRead a); rwa [(noteRead_eq c a).1] at this
  | copy s a iha =>
    simp only [Conv.toNode, seed_opaques, copy_opaques, add_opaques]
    have := iha (c.noteRead a); rwa [(noteRead_eq c a).1] at this
  | slice s a b d iha ihb ihd =>
    simp only [Conv.toNode, seed_opaques, add_opaques]
    have := iha (c.noteRead a); rw [(noteRead_eq c a).1] at this
    exact (this.trans (ihb _)).trans (ihd _)
  | other s i l =>
    simp only [Conv.toNode, seed_opaques, opaq_opaques]; exact List.prefix_append _ _

theorem prefix_get {α : Type} {l m : List α} (h : l <+: m) {j : Nat} {x : α}
    (hx : l[j]? = some x) : m[j]? = some x := by
  obtain ⟨t, rfl⟩ := h
  rw [List.getElem?_append_left (List.getElem?_eq_some_iff.1 hx).1]; exact hx

/-- The opaque table from an index on means what it holds. -/
def OpqOk (W : World) (M : Sem) (lo : Nat) (ops : List XE) : Prop :=
  ∀ j o, lo ≤ j → ops[j]? = some o → M.opq j = evalX W o

theorem OpqOk.of_prefix {W : World} {lo : Nat} {l m : List XE} (h : OpqOk W M lo m)
    (hp : l <+: m) : OpqOk W M lo l := fun j o hj ho => h j o hj (prefix_get hp ho)

theorem OpqOk.from {W : World} {lo : Nat} {l m : List XE} (h : OpqOk W M lo m)
    (hl : lo ≤ l.length) : OpqOk W M l.length m := fun j o hj ho => h j o (by omega) ho

theorem opaq_step {W : World} {c : Conv} (h : ConvOk M c) {e : XE} {l : Bool}
    (ho : OpqOk W M c.opaques.length (c.opaques ++ [e]))
    (hl : l = true → ∀ v, evalX W e = .ok v → ∃ xs, v = .list xs) :
    Step M c (c.opaq e l).1 (c.opaq e l).2 (evalX W e) := by
  have hm : M.opq c.opaques.length = evalX W e := ho _ _ (Nat.le_refl _) (by simp)
  have h0 : ConvOk M { c with opaques := c.opaques ++ [e] } := ⟨h.sound, h.pending⟩
  have s1 := add_step h0 (n := .opaq c.opaques.length) (by simp [ENode.children]) (by simp [Fits])
  simp only [evalNode] at s1
  rw [hm] at s1
  have s2 : Step M c _ _ _ := ⟨s1.ok, s1.grow, s1.lt, s1.den⟩
  unfold Conv.opaq
  dsimp only
  split
  · rename_i hl'
    exact s2.onEg (f := fun g => g.setList _) rfl (setList_sound s1.ok.sound s1.lt fun v hv => hl hl' v (by rw [← s1.den]; exact hv))
  · exact s2

theorem seed_versions (F : Nat → SiteFact) (e : XE) (stable : Bool) (r : Nat × Conv) :
    (Conv.seedFacts F e stable r).2.versions = r.2.versions := by
  unfold Conv.seedFacts
  dsimp only
  split
  · split <;> split <;> rfl
  · rfl
theorem opaq_versions (c : Conv) (e : XE) (l : Bool) : (c.opaq e l).2.versions = c.versions := by
  unfold Conv.opaq; dsimp only; split <;> rfl
theorem noteRead_versions (c : Conv) (e : XE) : (c.noteRead e).versions = c.versions := by
  unfold Conv.noteRead
  split
  · split <;> rfl
  · rfl
theorem track_versions (F : Nat → SiteFact) (s : Nat) (r : Nat × Conv) :
    (Conv.trackVar F s r).2.versions = r.2.versions := by
  unfold Conv.trackVar; dsimp only; split <;> rfl
theorem stage_versions (F : Nat → SiteFact) (e : XE) (r : Nat × Conv) :
    (Conv.stageLen F e r).2.versions = r.2.versions := by
  unfold Conv.stageLen
  dsimp only
  split
  · rfl
  · split <;> rfl
theorem copy_versions (n : Nat) (r : Nat × Conv) :
    (Conv.copyFact n r).2.versions = r.2.versions := by
  unfold Conv.copyFact; dsimp only; split
  · rfl
  · split <;> rfl
theorem add_versions (c : Conv) (n : ENode) : (c.add n).2.versions = c.versions := rfl

theorem toNode_versions (F : Nat → SiteFact) (e : XE) (c : Conv) :
    (Conv.toNode F e c).2.versions = c.versions := by
  induction e generalizing c with
  | num | bool | flt => simp only [Conv.toNode, seed_versions, add_versions]
  | var => simp only [Conv.toNode, seed_versions, track_versions, add_versions]
  | bin s op a b iha ihb =>
    simp only [Conv.toNode]
    split
    · rw [seed_versions, opaq_versions]
    · rw [seed_versions, add_versions, ihb, iha]
  | not s a iha => simp only [Conv.toNode, seed_versions, add_versions, iha]
  | index s a b iha ihb =>
    simp only [Conv.toNode, seed_versions, add_versions, ihb, iha, noteRead_versions]
  | contains s a b iha ihb =>
    simp only [Conv.toNode, seed_versions, add_versions, ihb, iha, noteRead_versions]
  | length s a iha =>
    simp only [Conv.toNode, seed_versions, stage_versions, add_versions, iha, noteRead_versions]
  | copy s a iha =>
    simp only [Conv.toNode, seed_versions, copy_versions, add_versions, iha, noteRead_versions]
  | slice s a b d iha ihb ihd =>
    simp only [Conv.toNode, seed_versions, add_versions, ihd, ihb, iha, noteRead_versions]
  | other s i l => simp only [Conv.toNode, seed_versions, opaq_versions]

theorem seed_suppressed (F : Nat → SiteFact) (e : XE) (stable : Bool) (r : Nat × Conv) :
    (Conv.seedFacts F e stable r).2.suppressed = r.2.suppressed := by
  unfold Conv.seedFacts
  dsimp only
  split
  · split <;> split <;> rfl
  · rfl
theorem opaq_suppressed (c : Conv) (e : XE) (l : Bool) : (c.opaq e l).2.suppressed = c.suppressed := by
  unfold Conv.opaq; dsimp only; split <;> rfl
theorem noteRead_suppressed (c : Conv) (e : XE) : (c.noteRead e).suppressed = c.suppressed := by
  unfold Conv.noteRead
  split
  · split <;> rfl
  · rfl
theorem track_suppressed (F : Nat → SiteFact) (s : Nat) (r : Nat × Conv) :
    (Conv.trackVar F s r).2.suppressed = r.2.suppressed := by
  unfold Conv.trackVar; dsimp only; split <;> rfl
theorem stage_suppressed (F : Nat → SiteFact) (e : XE) (r : Nat × Conv) :
    (Conv.stageLen F e r).2.suppressed = r.2.suppressed := by
  unfold Conv.stageLen
  dsimp only
  split
  · rfl
  · split <;> rfl
theorem copy_suppressed (n : Nat) (r : Nat × Conv) :
    (Conv.copyFact n r).2.suppressed = r.2.suppressed := by
  unfold Conv.copyFact; dsimp only; split
  · rfl
  · split <;> rfl
theorem add_suppressed (c : Conv) (n : ENode) : (c.add n).2.suppressed = c.suppressed := rfl

theorem toNode_suppressed (F : Nat → SiteFact) (e : XE) (c : Conv) :
    (Conv.toNode F e c).2.suppressed = c.suppressed := by
  induction e generalizing c with
  | num | bool | flt => simp only [Conv.toNode, seed_suppressed, add_suppressed]
  | var => simp only [Conv.toNode, seed_suppressed, track_suppressed, add_suppressed]
  | bin s op a b iha ihb =>
    simp only [Conv.toNode]
    split
    · rw [seed_suppressed, opaq_suppressed]
    · rw [seed_suppressed, add_suppressed, ihb, iha]
  | not s a iha => simp only [Conv.toNode, seed_suppressed, add_suppressed, iha]
  | index s a b iha ihb =>
    simp only [Conv.toNode, seed_suppressed, add_suppressed, ihb, iha, noteRead_suppressed]
  | contains s a b iha ihb =>
    simp only [Conv.toNode, seed_suppressed, add_suppressed, ihb, iha, noteRead_suppressed]
  | length s a iha =>
    simp only [Conv.toNode, seed_suppressed, stage_suppressed, add_suppressed, iha, noteRead_suppressed]
  | copy s a iha =>
    simp only [Conv.toNode, seed_suppressed, copy_suppressed, add_suppressed, iha, noteRead_suppressed]
  | slice s a b d iha ihb ihd =>
    simp only [Conv.toNode, seed_suppressed, add_suppressed, ihd, ihb, iha, noteRead_suppressed]
  | other s i l => simp only [Conv.toNode, seed_suppressed, opaq_suppressed]

/-- The subtrees whose facts are used. -/
def plain : XE → Bool
  | .num _ _ | .bool _ _ | .flt _ _ | .var _ _ => true
  | .bin _ op a b => !Conv.opaqueOp op && plain a && plain b
  | .not _ a => plain a
  | _ => false

theorem toNode_plain (F : Nat → SiteFact) (e : XE) (c : Conv) :
    (Conv.toNode F e c).1.2 = plain e := by
  induction e generalizing c with
  | bin s op a b iha ihb =>
    simp only [Conv.toNode, plain]
    split
    · rename_i h; simp [Conv.seedFacts, h]
    · rename_i h; simp [Conv.seedFacts, h, iha, ihb]
  | not s a iha => simp only [Conv.toNode, plain, Conv.seedFacts, iha]
  | _ => rfl

theorem steady_of {sup : List Sym} {e : XE} (h : plain e = true)
    (hm : Conv.mentions sup e = false) : Steady sup e := by
  induction e with
  | bin s op a b iha ihb =>
    simp only [plain, Bool.and_eq_true, Bool.not_eq_true'] at h
    simp only [Conv.mentions, Bool.or_eq_false_iff] at hm
    exact ⟨by intro hc; cases op <;> simp_all [Conv.opaqueOp], iha h.1.2 hm.1, ihb h.2 hm.2⟩
  | not s a iha => exact iha h hm
  | num | bool | flt => trivial
  | var s x => simpa [Steady, Conv.mentions] using hm
  | _ => cases h

theorem untouched_of {sup : List Sym} {e : XE} (hm : Conv.mentions sup e = false) :
    Untouched sup e := by
  induction e with
  | num | bool | flt | other => intro s x h; simp [occs] at h
  | var s x =>
    intro s' x' h
    simp only [occs, List.mem_cons, List.not_mem_nil, or_false, XE.var.injEq] at h
    simpa [Conv.mentions, h.2] using hm
  | bin s op a b iha ihb =>
    simp only [Conv.mentions, Bool.or_eq_false_iff] at hm
    intro s x h
    simp only [occs, List.mem_cons, List.mem_append, reduceCtorEq, false_or] at h
    exact h.elim (iha hm.1 s x) (ihb hm.2 s x)
  | index s a b iha ihb =>
    simp only [Conv.mentions, Bool.or_eq_false_iff] at hm
    intro s x h
    simp only [occs, List.mem_cons, List.mem_append, reduceCtorEq, false_or] at h
    exact h.elim (iha hm.1 s x) (ihb hm.2 s x)
  | contains s a b iha ihb =>
    simp only [Conv.mentions, Bool.or_eq_false_iff] at hm
    intro s x h
    simp only [occs, List.mem_cons, List.mem_append, reduceCtorEq, false_or] at h
    exact h.elim (iha hm.1 s x) (ihb hm.2 s x)
  | slice s a b d iha ihb ihd =>
    simp only [Conv.mentions, Bool.or_eq_false_iff] at hm
    intro s x h
    simp only [occs, List.mem_cons, List.mem_append, reduceCtorEq, false_or] at h
    exact h.elim (iha hm.1.1 s x) (·.elim (ihb hm.1.2 s x) (ihd hm.2 s x))
  | not s a iha | length s a iha | copy s a iha =>
    intro s x h
    simp only [occs, List.mem_cons, reduceCtorEq, false_or] at h
    exact iha hm s x h

/-- The versions and the suppressed variables are the same. -/
def Same (c' c : Conv) : Prop := c'.versions = c.versions ∧ c'.suppressed = c.suppressed

theorem Same.trans {a b c : Conv} (h : Same a b) (h' : Same b c) : Same a c :=
  ⟨h.1.trans h'.1, h.2.trans h'.2⟩

theorem toNode_same (F : Nat → SiteFact) (e : XE) (c : Conv) : Same (Conv.toNode F e c).2 c :=
  ⟨toNode_versions F e c, toNode_suppressed F e c⟩

theorem noteRead_same (c : Conv) (e : XE) : Same (c.noteRead e) c :=
  ⟨noteRead_versions c e, noteRead_suppressed c e⟩

/-- The converter stands where the world is: the current versions are the world's variables. -/
structure Ctx (W : World) (M : Sem) (sup : List Sym) (c : Conv) : Prop where
  var : ∀ x, M.var x (c.versionOf x) = W.vars x
  sup : c.suppressed = sup

theorem versionOf_congr {c c' : Conv} (h : c.versions = c'.versions) (x : Sym) :
    c.versionOf x = c'.versionOf x := by unfold Conv.versionOf; rw [h]

theorem seed_step {W : World} {F : Nat → SiteFact} {sup : List Sym} {e : XE} {c c' : Conv}
    {id : Nat} (hF : FactsTrue W sup (F e.site) e) (hsup : c'.suppressed = sup) {stable : Bool}
    (hp : stable = true → plain e = true) (h : Step M c id c' (evalX W e)) :
    Step M c (Conv.seedFacts F e stable (id, c')).1.1 (Conv.seedFacts F e stable (id, c')).2
      (evalX W e) := by
  unfold Conv.seedFacts
  dsimp only
  split
  · rename_i hst
    simp only [Bool.and_eq_true, Bool.not_eq_true', hsup] at hst
    have hst := steady_of (hp hst.1) hst.2
    have h1 : Step M c id (match (F e.site).scalar with
        | some k => c'.onEg (·.setScalar id k)
        | none => c') (evalX W e) := by
      split
      · rename_i k hk
        exact h.onEg rfl (setScalar_sound h.ok.sound h.lt fun v hv =>
          hF.scalar hst k v hk (by rw [← h.den]; exact hv))
      · exact h
    split
    · rename_i q hq
      exact h1.onEg rfl (setIntRange_sound h1.ok.sound h1.lt fun v hv =>
        hF.range hst q v hq (by rw [← h1.den]; exact hv))
    · exact h1
  · exact h

theorem hle (F : Nat → SiteFact) (a : XE) (c : Conv) :
    c.opaques.length ≤ (Conv.toNode F a (c.noteRead a)).2.opaques.length := by
  have := (toNode_prefix F a (c.noteRead a)).length_le
  rwa [(noteRead_eq c a).1] at this

theorem toNode_ok {W : World} (ha : Agrees W M) {sup : List Sym} {F : Nat → SiteFact} (e : XE) (c : Conv)
    (h : ConvOk M c) (hF : Truthful W sup F e) (hk : KindsSafe W e) (hs : SlicesSafe W e)
    (hv : Ctx W M sup c)
    (ho : OpqOk W M c.opaques.length (Conv.toNode F e c).2.opaques) :
    Step M c (Conv.toNode F e c).1.1 (Conv.toNode F e c).2 (evalX W e) := by
  have hva : ∀ {c : Conv}, Ctx W M sup c → ∀ c' : Conv, Same c' c → Ctx W M sup c' := by
    intro c hv c' e
    exact ⟨fun x => by rw [versionOf_congr e.1]; exact hv.var x, e.2.trans hv.sup⟩
  induction e generalizing c with
  | num s k =>
    have hself := hk (.num s k) (by simp [occs])
    refine seed_step (hF (.num s k) (by simp [occs])) (c' := (c.add (.int k)).2) hv.sup
      (stable := true) (fun _ => rfl) ?_
    exact add_step h (by simp [ENode.children]) (by simpa [Fits, narrow, KindSafe] using hself)
  | bool s b =>
    refine seed_step (hF (.bool s b) (by simp [occs])) (c' := (c.add (.bool b)).2) hv.sup
      (stable := true) (fun _ => rfl) ?_
    exact add_step h (by simp [ENode.children]) (by simp [Fits])
  | flt s f =>
    refine seed_step (hF (.flt s f) (by simp [occs])) (c' := (c.add (.flt f)).2) hv.sup
      (stable := true) (fun _ => rfl) ?_
    exact add_step h (by simp [ENode.children]) (by simp [Fits])
  | var s x =>
    have hself := hk (.var s x) (by simp [occs])
    have hfact := hF (.var s x) (by simp [occs])
    have s1 := add_step h (n := .var x (c.versionOf x)) (by simp [ENode.children])
      (by simp only [Fits, hv.var]; exact hself)
    simp only [evalNode, hv.var] at s1
    refine seed_step hfact ((track_suppressed F s _).trans hv.sup) (fun _ => rfl) ?_
    unfold Conv.trackVar
    dsimp only
    split
    · rename_i ht
      exact s1.onEg rfl (setCollection_sound s1.ok.sound s1.lt fun v hv =>
        hfact.tracked s x v rfl ht (s1.den.symm.trans hv))
    · exact s1
  | bin s op a b iha ihb =>
    have hself := hk (.bin s op a b) (by simp [occs])
    have hfact := hF (.bin s op a b) (by simp [occs])
    simp only [Conv.toNode] at ho ⊢
    split
    · rename_i hop
      rw [if_pos hop, seed_opaques, opaq_opaques] at ho
      exact seed_step hfact ((opaq_suppressed c _ _).trans hv.sup) (by simp)
        (opaq_step (l := false) h ho (by simp))
    · rename_i hop
      rw [if_neg hop, seed_opaques, add_opaques] at ho
      have sa := iha c h (fun o hm => hF o (by simp [occs, hm])) (fun o hm => hk o (by simp [occs, hm]))
        (fun s x y z hm => hs s x y z (by simp [occs, hm])) hv (ho.of_prefix (toNode_prefix F b _))
      have sb := ihb _ sa.ok (fun o hm => hF o (by simp [occs, hm]))
        (fun o hm => hk o (by simp [occs, hm])) (fun s x y z hm => hs s x y z (by simp [occs, hm])) (hva hv _ (toNode_same F a c))
        (ho.from (toNode_prefix F a c).length_le)
      have da := (sb.grow.den sa.lt).trans sa.den
      refine seed_step hfact ((add_suppressed _ _).trans <| ((toNode_same F b _).trans (toNode_same F a c)).2.trans hv.sup)
        (stable := (Conv.toNode F a c).1.2 && (Conv.toNode F b (Conv.toNode F a c).2).1.2)
        (fun hst => by
          simp only [toNode_plain, Bool.and_eq_true] at hst
          simp [plain, hop, hst]) ?_
      have := add_step sb.ok (n := .bin op (Conv.toNode F a c).1.1
          (Conv.toNode F b (Conv.toNode F a c).2).1.1)
        (by
          simp only [ENode.children, List.mem_cons, List.not_mem_nil, or_false, forall_eq_or_imp,
            forall_eq]
          exact ⟨Nat.lt_of_lt_of_le sa.lt sb.grow.le, sb.lt⟩)
        (by
          simp only [Fits]
          rw [da, sb.den, ha.P]
          exact hself)
      simp only [evalNode] at this
      rw [da, sb.den, ha.P] at this
      exact ⟨this.ok, (sa.grow.trans sb.grow).trans this.grow, this.lt, this.den⟩
  | not s a iha =>
    have hfact := hF (.not s a) (by simp [occs])
    simp only [Conv.toNode] at ho ⊢
    rw [seed_opaques, add_opaques] at ho
    have sa := iha c h (fun o hm => hF o (by simp [occs, hm])) (fun o hm => hk o (by simp [occs, hm]))
      (fun s x y z hm => hs s x y z (by simp [occs, hm])) hv ho
    refine seed_step hfact ((add_suppressed _ _).trans <| (toNode_same F a c).2.trans hv.sup) (stable := (Conv.toNode F a c).1.2)
      (by simp [plain, toNode_plain]) ?_
    have := add_step sa.ok (n := .not (Conv.toNode F a c).1.1)
      (by simpa [ENode.children] using sa.lt) (by simp [Fits])
    simp only [evalNode] at this
    rw [sa.den, ha.P] at this
    exact ⟨this.ok, sa.grow.trans this.grow, this.lt, this.den⟩
  | index s a b iha ihb =>
    have hfact := hF (.index s a b) (by simp [occs])
    simp only [Conv.toNode] at ho ⊢
    rw [seed_opaques, add_opaques] at ho
    have sa := iha (c.noteRead a) (noteRead_ok h a) (fun o hm => hF o (by simp [occs, hm]))
      (fun o hm => hk o (by simp [occs, hm]))
      (fun s x y z hm => hs s x y z (by simp [occs, hm])) (hva hv _ (noteRead_same c a))
      ((noteRead_eq c a).1.symm ▸ ho.of_prefix (toNode_prefix F b _))
    have sb := ihb _ sa.ok (fun o hm => hF o (by simp [occs, hm]))
      (fun o hm => hk o (by simp [occs, hm])) (fun s x y z hm => hs s x y z (by simp [occs, hm]))
      (hva hv _ ((toNode_same F a _).trans (noteRead_same c a))) (ho.from (hle F a c))
    have da := (sb.grow.den sa.lt).trans sa.den
    refine seed_step hfact ((add_suppressed _ _).trans <| ((toNode_same F b _).trans
      ((toNode_same F a _).trans (noteRead_same c a))).2.trans hv.sup) (stable := false) (by simp) ?_
    have := add_step sb.ok (n := .index (Conv.toNode F a (c.noteRead a)).1.1
        (Conv.toNode F b (Conv.toNode F a (c.noteRead a)).2).1.1)
      (by
        simp only [ENode.children, List.mem_cons, List.not_mem_nil, or_false, forall_eq_or_imp,
          forall_eq]
        exact ⟨Nat.lt_of_lt_of_le sa.lt sb.grow.le, sb.lt⟩)
      (by simp [Fits])
    simp only [evalNode] at this
    rw [da, sb.den, ha.P] at this
    have g0 : Grow c.eg (Conv.toNode F a (c.noteRead a)).2.eg := by
      have := sa.grow; rwa [(noteRead_eq c a).2.1] at this
    exact ⟨this.ok, (g0.trans sb.grow).trans this.grow, this.lt, this.den⟩
  | contains s a b iha ihb =>
    have hself := hk (.contains s a b) (by simp [occs])
    have hfact := hF (.contains s a b) (by simp [occs])
    simp only [Conv.toNode] at ho ⊢
    rw [seed_opaques, add_opaques] at ho
    have sa := iha (c.noteRead a) (noteRead_ok h a) (fun o hm => hF o (by simp [occs, hm]))
      (fun o hm => hk o (by simp [occs, hm]))
      (fun s x y z hm => hs s x y z (by simp [occs, hm])) (hva hv _ (noteRead_same c a))
      ((noteRead_eq c a).1.symm ▸ ho.of_prefix (toNode_prefix F b _))
    have sb := ihb _ sa.ok (fun o hm => hF o (by simp [occs, hm]))
      (fun o hm => hk o (by simp [occs, hm])) (fun s x y z hm => hs s x y z (by simp [occs, hm]))
      (hva hv _ ((toNode_same F a _).trans (noteRead_same c a))) (ho.from (hle F a c))
    have da := (sb.grow.den sa.lt).trans sa.den
    refine seed_step hfact ((add_suppressed _ _).trans <| ((toNode_same F b _).trans
      ((toNode_same F a _).trans (noteRead_same c a))).2.trans hv.sup) (stable := false) (by simp) ?_
    have := add_step sb.ok (n := .contains (Conv.toNode F a (c.noteRead a)).1.1
        (Conv.toNode F b (Conv.toNode F a (c.noteRead a)).2).1.1)
      (by
        simp only [ENode.children, List.mem_cons, List.not_mem_nil, or_false, forall_eq_or_imp,
          forall_eq]
        exact ⟨Nat.lt_of_lt_of_le sa.lt sb.grow.le, sb.lt⟩)
      (by
        simp only [Fits]
        rw [da, sb.den, ha.contains]
        intro v w hv hc hw
        obtain ⟨r, hr⟩ := hself v hv hc ⟨w, hw⟩
        refine ⟨r, ?_⟩
        simp only [evalX, hv, hw, Except.bind] at hr
        exact hr)
    simp only [evalNode] at this
    rw [da, sb.den, ha.contains] at this
    have g0 : Grow c.eg (Conv.toNode F a (c.noteRead a)).2.eg := by
      have := sa.grow; rwa [(noteRead_eq c a).2.1] at this
    exact ⟨this.ok, (g0.trans sb.grow).trans this.grow, this.lt, this.den⟩
  | length s a iha =>
    have hfact := hF (.length s a) (by simp [occs])
    have hfa : FactsTrue W sup (F a.site) a := hF a (by cases a <;> simp [occs])
    simp only [Conv.toNode] at ho ⊢
    rw [seed_opaques, stage_opaques, add_opaques] at ho
    have sa := iha (c.noteRead a) (noteRead_ok h a) (fun o hm => hF o (by simp [occs, hm]))
      (fun o hm => hk o (by simp [occs, hm]))
      (fun s x y z hm => hs s x y z (by simp [occs, hm])) (hva hv _ (noteRead_same c a))
      ((noteRead_eq c a).1.symm ▸ ho)
    have g0 : Grow c.eg (Conv.toNode F a (c.noteRead a)).2.eg := by
      have := sa.grow; rwa [(noteRead_eq c a).2.1] at this
    have this := add_step sa.ok (n := .len (Conv.toNode F a (c.noteRead a)).1.1)
      (by simpa [ENode.children] using sa.lt) (by simp [Fits])
    simp only [evalNode] at this
    rw [sa.den] at this
    refine seed_step hfact ((stage_suppressed F a _).trans
      (((toNode_same F a _).trans (noteRead_same c a)).2.trans hv.sup)) (stable := false) (by simp) ?_
    have base : Step M c _ _ (evalX W (.length s a)) :=
      ⟨this.ok, g0.trans this.grow, this.lt, this.den⟩
    unfold Conv.stageLen
    dsimp only
    split
    · exact base
    · rename_i hm
      have hm : Conv.mentions sup a = false := by
        rw [← (((toNode_same F a _).trans (noteRead_same c a)).2.trans hv.sup)]
        rw [add_suppressed] at hm
        simpa using hm
      split
      · rename_i q hq
        refine ⟨⟨this.ok.sound, ?_⟩, base.grow, base.lt, base.den⟩
        intro p hp
        rcases List.mem_append.1 hp with hp | hp
        · exact this.ok.pending p hp
        · simp only [List.mem_cons, List.not_mem_nil, or_false] at hp
          subst hp
          refine ⟨this.lt, fun w hw => ?_⟩
          have hw' := this.den.symm.trans hw
          cases hv : evalX W a with
          | error x => rw [hv] at hw'; cases hw'
          | ok v =>
            rw [hv] at hw'
            exact hfa.len (untouched_of hm) q v w hq hv hw'
      · exact base
  | copy s a iha =>
    have hfact := hF (.copy s a) (by simp [occs])
    simp only [Conv.toNode] at ho ⊢
    rw [seed_opaques, copy_opaques, add_opaques] at ho
    have sa := iha (c.noteRead a) (noteRead_ok h a) (fun o hm => hF o (by simp [occs, hm]))
      (fun o hm => hk o (by simp [occs, hm]))
      (fun s x y z hm => hs s x y z (by simp [occs, hm])) (hva hv _ (noteRead_same c a))
      ((noteRead_eq c a).1.symm ▸ ho)
    have g0 : Grow c.eg (Conv.toNode F a (c.noteRead a)).2.eg := by
      have := sa.grow; rwa [(noteRead_eq c a).2.1] at this
    have this := add_step sa.ok (n := .copy (Conv.toNode F a (c.noteRead a)).1.1)
      (by simpa [ENode.children] using sa.lt) (by simp [Fits])
    simp only [evalNode] at this
    rw [sa.den] at this
    have base : Step M c _ _ (evalX W (.copy s a)) :=
      ⟨this.ok, g0.trans this.grow, this.lt, this.den⟩
    have hlt := Nat.lt_of_lt_of_le sa.lt this.grow.le
    have hden := (this.grow.den (M := M) sa.lt).trans sa.den
    refine seed_step hfact ((copy_suppressed _ _).trans
      (((toNode_same F a _).trans (noteRead_same c a)).2.trans hv.sup)) (stable := false) (by simp) ?_
    unfold Conv.copyFact
    dsimp only
    split
    · rename_i hl
      refine base.onEg rfl (setList_sound this.ok.sound this.lt fun v hv => ?_)
      exact this.ok.sound.list hlt hl (hden.trans (this.den.symm.trans hv))
    · split
      · rename_i hl
        refine base.onEg rfl (setCollection_sound this.ok.sound this.lt fun v hv => ?_)
        exact this.ok.sound.collection hlt hl (hden.trans (this.den.symm.trans hv))
      · exact base
  | slice s a b d iha ihb ihd =>
    have hself := hs s a b d (by simp [occs])
    have hfact := hF (.slice s a b d) (by simp [occs])
    simp only [Conv.toNode] at ho ⊢
    rw [seed_opaques, add_opaques] at ho
    have ho2 := ho.of_prefix (toNode_prefix F d _)
    have sa := iha (c.noteRead a) (noteRead_ok h a) (fun o hm => hF o (by simp [occs, hm]))
      (fun o hm => hk o (by simp [occs, hm]))
      (fun s x y z hm => hs s x y z (by simp [occs, hm])) (hva hv _ (noteRead_same c a))
      ((noteRead_eq c a).1.symm ▸ ho2.of_prefix (toNode_prefix F b _))
    have sb := ihb _ sa.ok (fun o hm => hF o (by simp [occs, hm]))
      (fun o hm => hk o (by simp [occs, hm])) (fun s x y z hm => hs s x y z (by simp [occs, hm]))
      (hva hv _ ((toNode_same F a _).trans (noteRead_same c a))) (ho2.from (hle F a c))
    have sd := ihd _ sb.ok (fun o hm => hF o (by simp [occs, hm]))
      (fun o hm => hk o (by simp [occs, hm])) (fun s x y z hm => hs s x y z (by simp [occs, hm]))
      (hva hv _ ((toNode_same F b _).trans ((toNode_same F a _).trans (noteRead_same c a))))
      (ho.from (Nat.le_trans (hle F a c) (toNode_prefix F b _).length_le))
    have da := ((sb.grow.trans sd.grow).den sa.lt).trans sa.den
    have db := (sd.grow.den sb.lt).trans sb.den
    refine seed_step hfact ((add_suppressed _ _).trans <| ((toNode_same F d _).trans ((toNode_same F b _).trans
      ((toNode_same F a _).trans (noteRead_same c a)))).2.trans hv.sup) (stable := false) (by simp) ?_
    have := add_step sd.ok (n := .slice (Conv.toNode F a (c.noteRead a)).1.1
        (Conv.toNode F b (Conv.toNode F a (c.noteRead a)).2).1.1
        (Conv.toNode F d (Conv.toNode F b (Conv.toNode F a (c.noteRead a)).2).2).1.1)
      (by
        simp only [ENode.children, List.mem_cons, List.not_mem_nil, or_false, forall_eq_or_imp,
          forall_eq]
        exact ⟨Nat.lt_of_lt_of_le sa.lt (sb.grow.trans sd.grow).le,
          Nat.lt_of_lt_of_le sb.lt sd.grow.le, sd.lt⟩)
      (by
        simp only [Fits]
        rw [da, db, sd.den]
        exact hself)
    simp only [evalNode] at this
    rw [da, db, sd.den] at this
    have g0 : Grow c.eg (Conv.toNode F a (c.noteRead a)).2.eg := by
      have := sa.grow; rwa [(noteRead_eq c a).2.1] at this
    exact ⟨this.ok, ((g0.trans sb.grow).trans sd.grow).trans this.grow, this.lt, this.den⟩
  | other s i l =>
    have hself := hk (.other s i l) (by simp [occs])
    have hfact := hF (.other s i l) (by simp [occs])
    simp only [Conv.toNode] at ho ⊢
    rw [seed_opaques, opaq_opaques] at ho
    refine seed_step hfact ((opaq_suppressed c _ _).trans hv.sup) (by simp) (opaq_step h ho ?_)
    intro hl
    subst hl
    exact hself

theorem pending_sound {g : EG} (h : Sound M g) (ps : List (Nat × (Int × Int)))
    (hp : ∀ p ∈ ps, p.1 < g.nodes.length ∧ ∀ v, den M g p.1 = .ok v → InRange64 p.2 v) :
    From M g (ps.foldl (fun g p => g.setIntRange p.1 p.2) g) := by
  induction ps generalizing g with
  | nil => exact ⟨h, Grow.refl g⟩
  | cons p ps ih =>
    have hs := setIntRange_sound h (hp p (by simp)).1 (hp p (by simp)).2
    have hn : (g.setIntRange p.1 p.2).nodes = g.nodes := rfl
    have := ih hs fun q hq => by
      rw [hn, den_of_eq M hn]; exact hp q (by simp [hq])
    exact ⟨this.1, (Grow.of_eq hn).trans this.2⟩

theorem finish_from {c : Conv} (h : ConvOk M c) : From M c.eg c.finish.eg ∧
    c.finish.opaques = c.opaques := by
  unfold Conv.finish
  split
  · exact ⟨pending_sound h.sound c.pending h.pending, rfl⟩
  · exact ⟨⟨h.sound, Grow.refl _⟩, rfl⟩

end

/-- Simplification with right rules does not change the result of an expression. -/
theorem simplifyWith_eval {W : World} {rules : List Rule}
    (hr : ∀ M : Sem, ∀ rule ∈ rules, RuleOk M rule) (fuel iters cap : Nat) {F : Nat → SiteFact}
    {sup : List Sym} {e : XE} (hF : Truthful W sup F e) (hk : KindsSafe W e) (hs : SlicesSafe W e) :
    evalX W (simplifyWith rules fuel iters cap F sup e) = evalX W e := by
  unfold simplifyWith
  split
  · dsimp only
    split
    · rename_i e' he'
      split
      · rfl
      · generalize hc0 : ({ suppressed := sup } : Conv) = c0 at *
        let ops := (Conv.toNode F e c0).2.opaques
        let M : Sem := ⟨W.P, W.contains, fun x _ => W.vars x, fun j => match ops[j]? with
          | some o => evalX W o
          | none => .error .stuck⟩
        have ha : Agrees W M := ⟨rfl, rfl⟩
        have ho : OpqOk W M 0 ops := by
          intro j o _ hj
          show (match ops[j]? with | some o => evalX W o | none => .error .stuck) = _
          rw [hj]
        have h0 : ConvOk M c0 := by
          subst hc0
          exact ⟨Sound.new M, fun p hp => by cases hp⟩
        have st := toNode_ok ha e c0 h0 hF hk hs ⟨fun _ => rfl, hc0 ▸ rfl⟩ (ho.from (Nat.zero_le _))
        obtain ⟨f1, f2⟩ := finish_from st.ok
        have s1 := f1.trans (saturate_from fuel iters cap (hr M) f1.1)
        have hl : Leaves W M (fun _ => true) (Conv.toNode F e c0).2.finish.opaques :=
          f2 ▸ ⟨fun _ _ _ => rfl, fun j o _ hj => ho j o (Nat.zero_le _) hj⟩
        have := extract_eval ha hl s1.1 fuel (Nat.lt_of_lt_of_le st.lt s1.2.le) he'
        rw [this, s1.2.den st.lt, st.den]
    · rfl
  · rfl

end Verif.Lang.EGraph
