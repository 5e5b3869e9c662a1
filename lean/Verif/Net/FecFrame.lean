import Verif.Net.FecLemmas
import Verif.Net.WireLemmas
/-! # Shard framing, reconstruction, and the receiving inbox -/
namespace Verif.Net

theorem leB_length (w x : Nat) : (leB w x).length = w := by simp [leB, leBytes_length]

theorem leBytes_lt (w x : Nat) : ∀ b ∈ leBytes w x, b < 256 := by
  induction w generalizing x with
  | zero => simp [leBytes]
  | succ w ih =>
    intro b hb
    rcases List.mem_cons.mp hb with rfl | hb
    · omega
    · exact ih _ _ hb

theorem leV_leB (w x : Nat) : leV (leB w x) = x % 256 ^ w := by
  unfold leV leB
  rw [List.map_map, ← leValue_leBytes w x]
  congr 1
  have h : List.map (Byte.toNat ∘ Byte.ofNat) (leBytes w x) = List.map id (leBytes w x) :=
    List.map_congr_left fun b hb => ofNat_toNat b (leBytes_lt w x b hb)
  rw [h, List.map_id]

theorem parse_frame (msgId k n ol i : Nat) (shard : List Byte) (h1 : msgId < 2 ^ 64) (h2 : k < 2 ^ 16)
    (h3 : n < 2 ^ 16) (h4 : ol < 2 ^ 32) (h5 : i < 2 ^ 16) :
    parseShard (frameShard msgId k n ol i shard) = some (⟨msgId, k, n, ol, i⟩, shard) := by
  unfold parseShard
  have e : frameShard msgId k n ol i shard =
      [Byte.ofNat 254] ++ (leB 8 msgId ++ (leB 2 k ++ (leB 2 n ++ (leB 4 ol ++ (leB 2 i ++ shard))))) := by
    simp [frameShard]
  have d1 : (frameShard msgId k n ol i shard).drop 1 =
      leB 8 msgId ++ (leB 2 k ++ (leB 2 n ++ (leB 4 ol ++ (leB 2 i ++ shard)))) := by rw [e]; rfl
  have d9 : (frameShard msgId k n ol i shard).drop 9 =
      leB 2 k ++ (leB 2 n ++ (leB 4 ol ++ (leB 2 i ++ shard))) := by
    rw [show 9 = 1 + 8 from rfl, ← List.drop_drop, d1, List.drop_left' (leB_length _ _)]
  have d11 : (frameShard msgId k n ol i shard).drop 11 = leB 2 n ++ (leB 4 ol ++ (leB 2 i ++ shard)) := by
    rw [show 11 = 9 + 2 from rfl, ← List.drop_drop, d9, List.drop_left' (leB_length _ _)]
  have d13 : (frameShard msgId k n ol i shard).drop 13 = leB 4 ol ++ (leB 2 i ++ shard) := by
    rw [show 13 = 11 + 2 from rfl, ← List.drop_drop, d11, List.drop_left' (leB_length _ _)]
  have d17 : (frameShard msgId k n ol i shard).drop 17 = leB 2 i ++ shard := by
    rw [show 17 = 13 + 4 from rfl, ← List.drop_drop, d13, List.drop_left' (leB_length _ _)]
  have d19 : (frameShard msgId k n ol i shard).drop 19 = shard := by
    rw [show 19 = 17 + 2 from rfl, ← List.drop_drop, d17, List.drop_left' (leB_length _ _)]
  rw [d1, d9, d11, d13, d17, d19]
  rw [List.take_left' (leB_length _ _), List.take_left' (leB_length _ _), List.take_left' (leB_length _ _),
    List.take_left' (leB_length _ _), List.take_left' (leB_length _ _)]
  simp only [leV_leB]
  rw [if_neg]
  · congr 3 <;> apply Nat.mod_eq_of_lt
    · exact h1
    · exact h2
    · exact h3
    · exact h4
    · exact h5
  · rw [e]
    rintro (h | h)
    · simp only [List.length_append, leB_length, List.length_singleton] at h; omega
    · exact h rfl

/-- A message sent with redundancy: payload, `k` and `n`. -/
structure SentMsg where
  payload : List Byte
  k : Nat
  n : Nat

/-- The parameters the sender accepts, and a payload whose length fits the header. -/
def SentMsg.Valid (m : SentMsg) : Prop :=
  1 ≤ m.k ∧ m.k ≤ m.n ∧ m.n ≤ 256 ∧ m.payload.length < 2 ^ 32

/-- What arrives: some other bytes, or shard `i` of message `id`. -/
inductive Arrival where
  | other (bytes : List Byte)
  | shard (id i : Nat)
deriving DecidableEq

/-- The `i`-th frame of the frames `frame_redundant` makes for message `id`. -/
def frameOf (sent : Nat → SentMsg) (id i : Nat) : List Byte :=
  ((frameRedundant id (sent id).payload (sent id).k (sent id).n).getD []).getD i []

/-- The bytes of an arrival. -/
def Arrival.bytes (sent : Nat → SentMsg) : Arrival → List Byte
  | .other b => b
  | .shard id i => frameOf sent id i

/-- Arrivals that can occur: other bytes are not taken for a shard, shards are ones that were sent. -/
def Arrival.Ok (sent : Nat → SentMsg) : Arrival → Prop
  | .other b => parseShard b = none
  | .shard id i => id < 2 ^ 64 ∧ (sent id).Valid ∧ i < (sent id).n

/-- The shard indices of message `id` among the arrivals. -/
def indicesOf (id : Nat) : List Arrival → List Nat
  | [] => []
  | .other _ :: rest => indicesOf id rest
  | .shard id' i :: rest => if id' = id then i :: indicesOf id rest else indicesOf id rest

theorem frame_spec (sent : Nat → SentMsg) (id : Nat) (hid : id < 2 ^ 64) (hv : (sent id).Valid) :
    ∃ (e inv : List (List Byte)) (sl : Nat) (padded : List Byte), IsEnc (sent id).n (sent id).k e inv ∧
      padded.length = (sent id).k * sl ∧ (sent id).payload.length ≤ (sent id).k * sl ∧
      padded.take (sent id).payload.length = (sent id).payload ∧
      ∀ i < (sent id).n, parseShard (frameOf sent id i) =
        some (⟨id, (sent id).k, (sent id).n, (sent id).payload.length, i⟩, shardOf e (sent id).k sl padded i) := by
  obtain ⟨h1, h2, h3, h4⟩ := hv
  obtain ⟨e, inv, he, hf⟩ := fecEncode_spec (sent id).payload (sent id).k (sent id).n h1 h2 h3
  have hcov := shardLen_covers (sent id).payload.length (sent id).k h1
  refine ⟨e, inv, _, _, he, padTo_length _ _ hcov, hcov, padTo_take _ _, fun i hi => ?_⟩
  have hframe : frameOf sent id i = frameShard id (sent id).k (sent id).n (sent id).payload.length i
      (shardOf e (sent id).k (shardLen (sent id).payload.length (sent id).k)
        (padTo (sent id).payload ((sent id).k * shardLen (sent id).payload.length (sent id).k)) i) := by
    unfold frameOf frameRedundant
    rw [hf]
    simp [List.getD_eq_getElem?_getD, List.getElem?_mapIdx, List.getElem?_range hi]
  rw [hframe]
  exact parse_frame _ _ _ _ _ _ hid (by omega) (by omega) h4 (by omega)

theorem parse_ok (sent : Nat → SentMsg) (id i : Nat) (h : (Arrival.shard id i).Ok sent) :
    ∃ s, parseShard (frameOf sent id i) = some (⟨id, (sent id).k, (sent id).n, (sent id).payload.length, i⟩, s) := by
  obtain ⟨e, inv, sl, p, -, -, -, -, h5⟩ := frame_spec sent id h.1 h.2.1
  exact ⟨_, h5 i h.2.2⟩

/-- The shard carried by frame `i` of message `id`. -/
def shardData (sent : Nat → SentMsg) (id i : Nat) : List Byte :=
  match parseShard (frameOf sent id i) with
  | none => []
  | some (_, s) => s

/-- A group holds exactly the distinct shards of its message seen so far. -/
structure GroupOk (sent : Nat → SentMsg) (arr : List Arrival) (id : Nat) (g : ShardGroup) : Prop where
  k : g.k = (sent id).k
  n : g.n = (sent id).n
  len : g.origLen = (sent id).payload.length
  shards : ∀ p ∈ g.shards, p.2 = shardData sent id p.1
  nodup : (g.shards.map Prod.fst).Nodup
  mem : ∀ i, i ∈ g.shards.map Prod.fst ↔ i ∈ indicesOf id arr

theorem indicesOf_append (id : Nat) (a b : List Arrival) :
    indicesOf id (a ++ b) = indicesOf id a ++ indicesOf id b := by
  induction a with
  | nil => rfl
  | cons x a ih =>
    cases x with
    | other => exact ih
    | shard id' i =>
      simp only [List.cons_append, indicesOf, ih]
      split <;> simp

/-- The groups after the grouping loop. -/
structure GroupsOk (sent : Nat → SentMsg) (arr : List Arrival) (gs : List (Nat × ShardGroup)) : Prop where
  keys : (gs.map Prod.fst).Nodup
  has : ∀ id, id ∈ gs.map Prod.fst ↔ indicesOf id arr ≠ []
  ok : ∀ p ∈ gs, GroupOk sent arr p.1 p.2

theorem addShard_keys (h : ShardHeader) (s : List Byte) (gs : List (Nat × ShardGroup)) :
    ∀ id, id ∈ (addShard h s gs).map Prod.fst ↔ id = h.msgId ∨ id ∈ gs.map Prod.fst := by
  induction gs with
  | nil => intro id; simp [addShard]
  | cons p gs ih =>
    obtain ⟨id0, g⟩ := p
    intro id
    simp only [addShard]
    split
    · rename_i he
      subst he
      split <;> simp
    · simp only [List.map_cons, List.mem_cons]
      rw [ih id]
      constructor
      · rintro (h | h | h) <;> simp [h]
      · rintro (h | h | h) <;> simp [h]

theorem addShard_nodup (h : ShardHeader) (s : List Byte) (gs : List (Nat × ShardGroup))
    (hn : (gs.map Prod.fst).Nodup) : ((addShard h s gs).map Prod.fst).Nodup := by
  induction gs with
  | nil => simp [addShard]
  | cons p gs ih =>
    obtain ⟨id0, g⟩ := p
    simp only [List.map_cons, List.nodup_cons] at hn
    simp only [addShard]
    split
    · split <;> simpa using hn
    · rename_i hne
      simp only [List.map_cons, List.nodup_cons]
      refine ⟨fun hc => ?_, ih hn.2⟩
      rcases (addShard_keys h s gs id0).mp hc with h' | h'
      · exact hne h'
      · exact hn.1 h'

theorem addShard_mem (h : ShardHeader) (s : List Byte) (gs : List (Nat × ShardGroup))
    (hn : (gs.map Prod.fst).Nodup) : ∀ p ∈ addShard h s gs,
    (p.1 ≠ h.msgId ∧ p ∈ gs) ∨
    (p.1 = h.msgId ∧ h.msgId ∉ gs.map Prod.fst ∧ p.2 = ⟨h.k, h.n, h.origLen, [(h.index, s)]⟩) ∨
    (p.1 = h.msgId ∧ ∃ g, (h.msgId, g) ∈ gs ∧ p.2 =
      if g.k = h.k ∧ g.n = h.n ∧ g.origLen = h.origLen ∧ h.index ∉ g.shards.map Prod.fst then
        { g with shards := g.shards ++ [(h.index, s)] } else g) := by
  induction gs with
  | nil => intro p hp; simp only [addShard, List.mem_singleton] at hp; subst hp; simp
  | cons q gs ih =>
    obtain ⟨id0, g⟩ := q
    simp only [List.map_cons, List.nodup_cons] at hn
    intro p hp
    simp only [addShard] at hp
    split at hp
    · rename_i he
      subst he
      have hother : ∀ p ∈ gs, p.1 ≠ h.msgId := fun p hp hc => hn.1 (hc ▸ List.mem_map_of_mem hp)
      split at hp
      · rename_i hcond
        rcases List.mem_cons.mp hp with rfl | hp
        · exact Or.inr (Or.inr ⟨rfl, g, by simp, by rw [if_pos hcond]⟩)
        · exact Or.inl ⟨hother p hp, by simp [hp]⟩
      · rename_i hcond
        rcases List.mem_cons.mp hp with rfl | hp
        · exact Or.inr (Or.inr ⟨rfl, g, by simp, by rw [if_neg hcond]⟩)
        · exact Or.inl ⟨hother p hp, by simp [hp]⟩
    · rename_i hne
      rcases List.mem_cons.mp hp with rfl | hp
      · exact Or.inl ⟨hne, by simp⟩
      · rcases ih hn.2 p hp with ⟨h1, h2⟩ | ⟨h1, h2, h3⟩ | ⟨h1, g', h2, h3⟩
        · exact Or.inl ⟨h1, by simp [h2]⟩
        · refine Or.inr (Or.inl ⟨h1, ?_, h3⟩)
          simp only [List.map_cons, List.mem_cons, not_or]
          exact ⟨fun hc => hne hc.symm, h2⟩
        · exact Or.inr (Or.inr ⟨h1, g', by simp [h2], h3⟩)

theorem groups_step (sent : Nat → SentMsg) (arr : List Arrival) (gs : List (Nat × ShardGroup))
    (id i : Nat) (hok : (Arrival.shard id i).Ok sent) (h : GroupsOk sent arr gs) :
    GroupsOk sent (arr ++ [.shard id i]) (addShard ⟨id, (sent id).k, (sent id).n, (sent id).payload.length, i⟩
      (shardData sent id i) gs) := by
  have hidx : ∀ id', indicesOf id' (arr ++ [.shard id i]) = indicesOf id' arr ++ (if id = id' then [i] else []) := by
    intro id'; rw [indicesOf_append]; simp [indicesOf]
  refine ⟨addShard_nodup _ _ _ h.keys, fun id' => ?_, fun p hp => ?_⟩
  · rw [addShard_keys, h.has, hidx]
    by_cases he : id = id'
    · subst he; simp
    · simp only [if_neg he, List.append_nil]
      constructor
      · rintro (hc | hc)
        · exact absurd hc.symm he
        · exact hc
      · exact Or.inr
  · rcases addShard_mem _ _ _ h.keys p hp with ⟨h1, h2⟩ | ⟨h1, h2, h3⟩ | ⟨h1, g, h2, h3⟩
    · have ho := h.ok p h2
      refine ⟨ho.k, ho.n, ho.len, ho.shards, ho.nodup, fun j => ?_⟩
      rw [ho.mem, hidx, if_neg (fun hc => h1 hc.symm), List.append_nil]
    · obtain ⟨pid, pg⟩ := p
      simp only at h1 h3
      subst h1 h3
      have hnil : indicesOf pid arr = [] := by
        by_contra hc; exact h2 ((h.has pid).mpr hc)
      refine ⟨rfl, rfl, rfl, by simp, by simp, fun j => ?_⟩
      rw [hidx, hnil]; simp
    · obtain ⟨pid, pg⟩ := p
      simp only at h1 h2 h3
      subst h1
      have ho := h.ok _ h2
      simp only at ho
      by_cases hc : i ∈ g.shards.map Prod.fst
      · rw [if_neg (fun hh => hh.2.2.2 hc)] at h3
        subst h3
        refine ⟨ho.k, ho.n, ho.len, ho.shards, ho.nodup, fun j => ?_⟩
        rw [ho.mem, hidx, if_pos rfl]
        simp only [List.mem_append, List.mem_singleton]
        constructor
        · exact Or.inl
        · rintro (hj | rfl)
          · exact hj
          · exact (ho.mem j).mp hc
      · rw [if_pos ⟨ho.k, ho.n, ho.len, hc⟩] at h3
        subst h3
        refine ⟨ho.k, ho.n, ho.len, ?_, ?_, fun j => ?_⟩
        · intro q hq
          rcases List.mem_append.mp hq with hq | hq
          · exact ho.shards q hq
          · simp only [List.mem_singleton] at hq; subst hq; rfl
        · rw [List.map_append, List.nodup_append]
          refine ⟨ho.nodup, by simp, ?_⟩
          intro a ha b hb
          simp only [List.map_cons, List.map_nil, List.mem_singleton] at hb
          subst hb
          rintro rfl; exact hc ha
        · rw [List.map_append, List.mem_append, ho.mem, hidx, if_pos rfl]
          simp

theorem groups_ok (sent : Nat → SentMsg) (arr : List Arrival) (hok : ∀ a ∈ arr, a.Ok sent) :
    GroupsOk sent arr (groupShards (arr.map (Arrival.bytes sent))) := by
  induction arr using List.reverseRecOn with
  | nil => exact ⟨by simp [groupShards], by simp [groupShards, indicesOf], by simp [groupShards]⟩
  | append_singleton arr a ih =>
    have hprev := ih fun b hb => hok b (by simp [hb])
    have ha := hok a (by simp)
    unfold groupShards at hprev ⊢
    rw [List.map_append, List.foldl_append]
    generalize List.foldl _ _ (List.map (Arrival.bytes sent) arr) = gs at hprev
    simp only [List.map_cons, List.map_nil, List.foldl_cons, List.foldl_nil]
    cases a with
    | other b =>
      have : parseShard b = none := ha
      simp only [Arrival.bytes, this]
      have e : ∀ id, indicesOf id (arr ++ [.other b]) = indicesOf id arr := by
        intro id; rw [indicesOf_append]; simp [indicesOf]
      refine ⟨hprev.keys, fun id => by rw [hprev.has, e], fun p hp => ?_⟩
      have ho := hprev.ok p hp
      exact ⟨ho.k, ho.n, ho.len, ho.shards, ho.nodup, fun j => by rw [ho.mem, e]⟩
    | shard id i =>
      obtain ⟨s, hs⟩ := parse_ok sent id i ha
      have hsd : shardData sent id i = s := by simp [shardData, hs]
      simp only [Arrival.bytes, hs]
      rw [← hsd]
      exact groups_step sent arr gs id i ha hprev

/-- Decoding a group. -/
theorem group_decode (sent : Nat → SentMsg) (arr : List Arrival) (hok : ∀ a ∈ arr, a.Ok sent) (id : Nat)
    (g : ShardGroup) (hg : GroupOk sent arr id g) (hne : indicesOf id arr ≠ []) :
    g.shards.length = (indicesOf id arr).toFinset.card ∧
    fecDecode g.origLen g.k g.n g.shards =
      if (sent id).k ≤ (indicesOf id arr).toFinset.card then some (sent id).payload else none := by
  have hmem : ∀ i ∈ indicesOf id arr, (Arrival.shard id i).Ok sent := by
    intro i hi
    have : Arrival.shard id i ∈ arr := by
      clear hok hg hne
      induction arr with
      | nil => simp [indicesOf] at hi
      | cons a arr ih =>
        cases a with
        | other b => exact List.mem_cons_of_mem _ (ih hi)
        | shard id' j =>
          simp only [indicesOf] at hi
          split at hi
          · rename_i he
            subst he
            rcases List.mem_cons.mp hi with rfl | hi
            · simp
            · exact List.mem_cons_of_mem _ (ih hi)
          · exact List.mem_cons_of_mem _ (ih hi)
    exact hok _ this
  obtain ⟨i0, hi0⟩ := List.exists_mem_of_ne_nil _ hne
  have hok0 := hmem i0 hi0
  obtain ⟨e, inv, sl, padded, he, hpl, hle, htake, hparse⟩ := frame_spec sent id hok0.1 hok0.2.1
  have hset : (g.shards.map Prod.fst).toFinset = (indicesOf id arr).toFinset := by
    ext x; simp only [List.mem_toFinset]; exact hg.mem x
  have hcard : (g.shards.map Prod.fst).toFinset.card = g.shards.length := by
    rw [List.toFinset_card_of_nodup hg.nodup, List.length_map]
  refine ⟨by rw [← hcard, hset], ?_⟩
  obtain ⟨h1, h2, h3, h4⟩ := hok0.2.1
  have hgood : ∀ p ∈ g.shards, p.1 < (sent id).n ∧ p.2 = shardOf e (sent id).k sl padded p.1 := by
    intro p hp
    have hi := (hmem p.1 ((hg.mem p.1).mp (List.mem_map_of_mem hp))).2.2
    refine ⟨hi, ?_⟩
    rw [hg.shards p hp, shardData, hparse _ hi]
  rw [hg.k, hg.n, hg.len, fecDecode_spec he h1 h2 h3 sl padded hpl _ _ hgood, hset, htake]
  by_cases hc : (sent id).k ≤ (indicesOf id arr).toFinset.card
  · rw [if_pos ⟨hc, hle⟩, if_pos hc]
  · rw [if_neg (fun h => hc h.1), if_neg hc]

theorem firstDecoded_spec (sent : Nat → SentMsg) (arr : List Arrival) (hok : ∀ a ∈ arr, a.Ok sent)
    (gs : List (Nat × ShardGroup)) (hgs : ∀ p ∈ gs, GroupOk sent arr p.1 p.2 ∧ indicesOf p.1 arr ≠ []) :
    (∀ id data, firstDecoded gs = some (id, data) → data = (sent id).payload ∧
      id ∈ gs.map Prod.fst ∧ (sent id).k ≤ (indicesOf id arr).toFinset.card) ∧
    (firstDecoded gs = none → ∀ id ∈ gs.map Prod.fst, (indicesOf id arr).toFinset.card < (sent id).k) := by
  induction gs with
  | nil => simp [firstDecoded]
  | cons p gs ih =>
    obtain ⟨id, g⟩ := p
    obtain ⟨hg, hne⟩ := hgs (id, g) (by simp)
    obtain ⟨ih1, ih2⟩ := ih fun p hp => hgs p (by simp [hp])
    obtain ⟨hlen, hdec⟩ := group_decode sent arr hok id g hg hne
    simp only [firstDecoded]
    rw [hlen, hg.k, hg.n, hg.len]
    rw [hg.k, hg.n, hg.len] at hdec
    rw [hdec]
    by_cases hc : (sent id).k ≤ (indicesOf id arr).toFinset.card
    · rw [if_pos hc, if_pos hc]
      refine ⟨fun id' data h => ?_, fun h => (by cases h)⟩
      simp only [Option.some.injEq, Prod.mk.injEq] at h
      obtain ⟨rfl, rfl⟩ := h
      exact ⟨rfl, by simp, hc⟩
    · rw [if_neg hc]
      refine ⟨fun id' data h => ?_, fun h id' hid => ?_⟩
      · obtain ⟨a, b, c⟩ := ih1 id' data h
        exact ⟨a, by simp only [List.map_cons, List.mem_cons]; exact Or.inr b, c⟩
      · simp only [List.map_cons, List.mem_cons] at hid
        rcases hid with rfl | hid
        · omega
        · exact ih2 h id' hid

theorem reconstruct_spec (sent : Nat → SentMsg) (arr : List Arrival) (hok : ∀ a ∈ arr, a.Ok sent)
    (order : List (Nat × ShardGroup) → List (Nat × ShardGroup)) (hord : ∀ l, (order l).Perm l) :
    (∀ id data, reconstructRedundant order (arr.map (Arrival.bytes sent)) = some (id, data) →
      data = (sent id).payload ∧ (sent id).k ≤ (indicesOf id arr).toFinset.card ∧ indicesOf id arr ≠ []) ∧
    (reconstructRedundant order (arr.map (Arrival.bytes sent)) = none →
      ∀ id, indicesOf id arr ≠ [] → (indicesOf id arr).toFinset.card < (sent id).k) := by
  have hgs := groups_ok sent arr hok
  unfold reconstructRedundant
  generalize groupShards (arr.map (Arrival.bytes sent)) = gs at hgs
  have hp := hord gs
  have hkeys : ∀ id, id ∈ (order gs).map Prod.fst ↔ indicesOf id arr ≠ [] := by
    intro id; rw [← hgs.has id]; exact (hp.map Prod.fst).mem_iff
  have hall : ∀ p ∈ order gs, GroupOk sent arr p.1 p.2 ∧ indicesOf p.1 arr ≠ [] := fun p hpm =>
    ⟨hgs.ok p (hp.mem_iff.mp hpm), (hkeys p.1).mp (List.mem_map_of_mem hpm)⟩
  obtain ⟨h1, h2⟩ := firstDecoded_spec sent arr hok _ hall
  refine ⟨fun id data h => ?_, fun h id hid => h2 h id ((hkeys id).mpr hid)⟩
  obtain ⟨a, b, c⟩ := h1 id data h
  exact ⟨a, c, (hkeys id).mp b⟩

/-! ### The inbox -/

/-- What the inbox hands over, told apart: other bytes, or message `id`. -/
inductive Handed where
  | other (bytes : List Byte)
  | msg (id : Nat)
deriving DecidableEq

/-- The bytes handed over. -/
def Handed.bytes (sent : Nat → SentMsg) : Handed → List Byte
  | .other b => b
  | .msg id => (sent id).payload

/-- Description of the inbox's behaviour: per message, the arrivals since it was last handed over;
it is handed over when these contain `k` distinct shards. -/
def handedOver (sent : Nat → SentMsg) : (Nat → List Nat) → List Arrival → List Handed
  | _, [] => []
  | seen, .other b :: rest => .other b :: handedOver sent seen rest
  | seen, .shard id i :: rest =>
    if (sent id).k ≤ (seen id ++ [i]).toFinset.card then
      .msg id :: handedOver sent (fun j => if j = id then [] else seen j) rest
    else handedOver sent (fun j => if j = id then seen id ++ [i] else seen j) rest

theorem indicesOf_shards (id : Nat) (l : List Nat) : indicesOf id (l.map (Arrival.shard id)) = l := by
  induction l with
  | nil => rfl
  | cons i l ih => simp [indicesOf, ih]

theorem indicesOf_ne (id id' : Nat) (h : id' ≠ id) (l : List Nat) : indicesOf id' (l.map (Arrival.shard id)) = [] := by
  induction l with
  | nil => rfl
  | cons i l ih => simp [indicesOf, ih, Ne.symm h]

theorem inbox_run (sent : Nat → SentMsg) (order : List (Nat × ShardGroup) → List (Nat × ShardGroup))
    (hord : ∀ l, (order l).Perm l) : ∀ (arr : List Arrival) (s : ShardInbox) (seen : Nat → List Nat),
    (∀ a ∈ arr, a.Ok sent) →
    (∀ id, s.bufs id = (seen id).map (frameOf sent id)) → (∀ id, ∀ i ∈ seen id, (Arrival.shard id i).Ok sent) →
    (arr.foldl (fun s a => s.receive order (a.bytes sent)) s).delivered =
      s.delivered ++ (handedOver sent seen arr).map (Handed.bytes sent) := by
  intro arr
  induction arr with
  | nil => intro s seen _ _ _; simp [handedOver]
  | cons a arr ih =>
    intro s seen hok hbuf hseen
    have ha := hok a (by simp)
    have hok' : ∀ a ∈ arr, a.Ok sent := fun b hb => hok b (by simp [hb])
    rw [List.foldl_cons]
    cases a with
    | other b =>
      have hb : parseShard b = none := ha
      have hr : s.receive order b = { s with delivered := s.delivered ++ [b] } := by
        unfold ShardInbox.receive; rw [hb]
      simp only [handedOver]
      rw [show Arrival.bytes sent (.other b) = b from rfl, hr]
      rw [ih { s with delivered := s.delivered ++ [b] } seen hok' hbuf hseen]
      simp [Handed.bytes]
    | shard id i =>
      obtain ⟨sd, hsd⟩ := parse_ok sent id i ha
      have hbuf' : s.bufs id ++ [frameOf sent id i] = (seen id ++ [i]).map (frameOf sent id) := by
        rw [hbuf]; simp
      have hl : (seen id ++ [i]).map (frameOf sent id) =
          ((seen id ++ [i]).map (Arrival.shard id)).map (Arrival.bytes sent) := by
        rw [List.map_map]; rfl
      have hokl : ∀ a ∈ (seen id ++ [i]).map (Arrival.shard id), a.Ok sent := by
        intro a hm
        obtain ⟨j, hj, rfl⟩ := List.mem_map.mp hm
        rcases List.mem_append.mp hj with hj | hj
        · exact hseen id j hj
        · simp only [List.mem_singleton] at hj; subst hj; exact ha
      obtain ⟨r1, r2⟩ := reconstruct_spec sent _ hokl order hord
      rw [← hl] at r1 r2
      have hcl : (seen id ++ [i]).toFinset.card ≤ (seen id ++ [i]).length := List.toFinset_card_le _
      have hrec : (if (s.bufs id ++ [frameOf sent id i]).length ≥ (sent id).k then
          reconstructRedundant order (s.bufs id ++ [frameOf sent id i]) else none) =
          if (sent id).k ≤ (seen id ++ [i]).toFinset.card then some (id, (sent id).payload) else none := by
        rw [hbuf', List.length_map]
        by_cases hc : (sent id).k ≤ (seen id ++ [i]).toFinset.card
        · rw [if_pos hc, if_pos (le_trans hc hcl)]
          cases hq : reconstructRedundant order ((seen id ++ [i]).map (frameOf sent id)) with
          | none =>
            have := r2 hq id (by rw [indicesOf_shards]; simp)
            rw [indicesOf_shards] at this
            omega
          | some q =>
            obtain ⟨id', data⟩ := q
            obtain ⟨e1, -, e3⟩ := r1 id' data hq
            have : id' = id := by
              by_contra hne
              exact e3 (indicesOf_ne id id' hne _)
            subst this
            rw [e1]
        · rw [if_neg hc]
          split
          · cases hq : reconstructRedundant order ((seen id ++ [i]).map (frameOf sent id)) with
            | none => rfl
            | some q =>
              obtain ⟨id', data⟩ := q
              obtain ⟨-, e2, e3⟩ := r1 id' data hq
              have : id' = id := by
                by_contra hne
                exact e3 (indicesOf_ne id id' hne _)
              subst this
              rw [indicesOf_shards] at e2
              exact absurd e2 hc
          · rfl
      simp only [handedOver]
      rw [show Arrival.bytes sent (.shard id i) = frameOf sent id i from rfl]
      by_cases hc : (sent id).k ≤ (seen id ++ [i]).toFinset.card
      · rw [if_pos hc] at hrec ⊢
        have hr : s.receive order (frameOf sent id i) =
            ⟨fun j => if j = id then [] else s.bufs j, s.delivered ++ [(sent id).payload]⟩ := by
          unfold ShardInbox.receive; rw [hsd]; simp only [hrec]
        rw [hr, ih _ (fun j => if j = id then [] else seen j) hok']
        · simp [Handed.bytes]
        · intro j
          simp only
          split
          · simp
          · exact hbuf j
        · intro j x hx
          split at hx
          · simp at hx
          · exact hseen j x hx
      · rw [if_neg hc] at hrec ⊢
        have hr : s.receive order (frameOf sent id i) =
            { s with bufs := fun j => if j = id then s.bufs id ++ [frameOf sent id i] else s.bufs j } := by
          unfold ShardInbox.receive; rw [hsd]; simp only [hrec]
        rw [hr, ih _ (fun j => if j = id then seen id ++ [i] else seen j) hok']
        · intro j
          simp only
          split
          · rename_i hj; subst hj; exact hbuf'
          · exact hbuf j
        · intro j x hx
          split at hx
          · rename_i hj; subst hj
            rcases List.mem_append.mp hx with hx | hx
            · exact hseen j x hx
            · simp only [List.mem_singleton] at hx; subst hx; exact ha
          · exact hseen j x hx

/-! ### Counting -/

/-- Deliveries of one message from its shard arrivals. -/
def countFrom (k : Nat) : List Nat → List Nat → Nat
  | _, [] => 0
  | seen, i :: is =>
    if k ≤ (seen ++ [i]).toFinset.card then 1 + countFrom k [] is else countFrom k (seen ++ [i]) is

theorem count_handed (sent : Nat → SentMsg) (id : Nat) : ∀ (arr : List Arrival) (seen : Nat → List Nat),
    (handedOver sent seen arr).count (.msg id) = countFrom (sent id).k (seen id) (indicesOf id arr) := by
  intro arr
  induction arr with
  | nil => intro seen; rfl
  | cons a arr ih =>
    intro seen
    cases a with
    | other b =>
      simp only [handedOver, indicesOf]
      rw [List.count_cons, ih]
      simp
    | shard id' i =>
      simp only [handedOver, indicesOf]
      by_cases he : id' = id
      · subst he
        rw [if_pos rfl, countFrom]
        split
        · rw [List.count_cons, ih]; simp [Nat.add_comm]
        · rw [ih]; simp
      · rw [if_neg he]
        have hne : id ≠ id' := fun h => he h.symm
        split
        · rw [List.count_cons, ih]; simp [hne, he]
        · rw [ih]; simp [hne]

theorem count_pos (k : Nat) (hk : 1 ≤ k) : ∀ (is seen : List Nat), seen.toFinset.card < k →
    (1 ≤ countFrom k seen is ↔ k ≤ (seen ++ is).toFinset.card) := by
  intro is
  induction is with
  | nil => intro seen hs; simp only [countFrom, List.append_nil]; omega
  | cons i is ih =>
    intro seen hs
    rw [countFrom]
    have e : seen ++ i :: is = (seen ++ [i]) ++ is := by simp
    rw [e]
    split
    · rename_i hc
      have : (seen ++ [i]).toFinset.card ≤ ((seen ++ [i]) ++ is).toFinset.card := by
        apply Finset.card_le_card
        intro x hx
        simp only [List.mem_toFinset] at hx ⊢
        exact List.mem_append_left _ hx
      omega
    · rename_i hc
      exact ih (seen ++ [i]) (by omega)

theorem count_le_one (k n : Nat) (hk : 1 ≤ k) (hn : n < 2 * k) : ∀ (is seen : List Nat),
    seen.toFinset.card < k → (seen ++ is).Nodup → (seen ++ is).length ≤ n → countFrom k seen is ≤ 1 := by
  intro is
  induction is with
  | nil => intro seen _ _ _; simp [countFrom]
  | cons i is ih =>
    intro seen hs hnd hlen
    have e : seen ++ i :: is = (seen ++ [i]) ++ is := by simp
    rw [e] at hnd hlen
    rw [countFrom]
    split
    · rename_i hc
      rw [List.nodup_append] at hnd
      have hl : (seen ++ [i]).toFinset.card = (seen ++ [i]).length := List.toFinset_card_of_nodup hnd.1
      simp only [List.length_append] at hlen hl
      have hz : ¬ 1 ≤ countFrom k [] is := by
        rw [count_pos k hk is [] (by simp; omega)]
        have := List.toFinset_card_le ([] ++ is)
        simp only [List.nil_append, List.length_singleton] at *
        omega
      omega
    · exact ih (seen ++ [i]) (by omega) hnd hlen

end Verif.Net
