import Verif.Net.FecFrame
/-! # C35 erasure coding, C38 redundant delivery -/
namespace Verif.Props
open Verif.Net

/-! ## C35 -/

/-- The set of distinct shard numbers in a list of received shards. -/
def distinctShards (hv : List (Nat × List Byte)) : Nat := (hv.map Prod.fst).toFinset.card

/-- **C35**: for every payload and `1 ≤ k ≤ n ≤ 256`, encoding makes `n` shards; and for every list of
received shards — any order, any repetitions — decoding returns exactly the payload when at least
`k` distinct ones are present and refuses otherwise. -/
theorem C35_any_k_of_n (data : List Byte) (k n : Nat) (hk : 1 ≤ k) (hkn : k ≤ n) (hn : n ≤ 256) :
    ∃ shards, fecEncode data k n = some (data.length, shards) ∧ shards.length = n ∧
      ∀ hv : List (Nat × List Byte), (∀ p ∈ hv, shards[p.1]? = some p.2) →
        fecDecode data.length k n hv = if k ≤ distinctShards hv then some data else none := by
  obtain ⟨e, inv, he, hf⟩ := fecEncode_spec data k n hk hkn hn
  refine ⟨_, hf, by simp, fun hv hgood => ?_⟩
  have hcov := shardLen_covers data.length k hk
  have hgood' : ∀ p ∈ hv, p.1 < n ∧ p.2 = shardOf e k (shardLen data.length k)
      (padTo data (k * shardLen data.length k)) p.1 := by
    intro p hp
    have := hgood p hp
    rw [List.getElem?_map] at this
    have hlt : p.1 < n := by
      by_contra hc
      rw [List.getElem?_eq_none (by simp; omega)] at this
      cases this
    rw [List.getElem?_range hlt] at this
    exact ⟨hlt, by simpa using this.symm⟩
  rw [fecDecode_spec he hk hkn hn _ _ (padTo_length _ _ hcov) _ hv hgood', padTo_take]
  unfold distinctShards
  by_cases hc : k ≤ (hv.map Prod.fst).toFinset.card
  · rw [if_pos ⟨hc, hcov⟩, if_pos hc]
  · rw [if_neg (fun h => hc h.1), if_neg hc]

/-- Two of three shards, out of order and repeated, of a five-byte payload; one alone is refused. -/
example :
    let data := [7, 1, 255, 0, 42].map Byte.ofNat
    let shards := ((fecEncode data 2 3).getD (0, [])).2
    fecDecode 5 2 3 [(2, shards.getD 2 []), (2, shards.getD 2 []), (0, shards.getD 0 [])] = some data ∧
    fecDecode 5 2 3 [(2, shards.getD 2 []), (2, shards.getD 2 [])] = none := by decide +kernel

/-- **C35**: encoding refuses exactly the degenerate parameters. -/
theorem C35_refuses (data : List Byte) (k n : Nat) :
    fecEncode data k n = none ↔ (k = 0 ∨ n < k ∨ 256 < n) := by
  constructor
  · intro h
    by_contra hc
    obtain ⟨e, inv, -, hf⟩ := fecEncode_spec data k n (by omega) (by omega) (by omega)
    rw [hf] at h; cases h
  · intro h
    unfold fecEncode
    rw [if_pos (by omega)]

/-- **C35**: the first `k` shards are the payload itself, cut in `k` equal pieces and padded with
zeros. -/
theorem C35_systematic (data : List Byte) (k n : Nat) (hk : 1 ≤ k) (hkn : k ≤ n) (hn : n ≤ 256) :
    ∃ shards zeros, fecEncode data k n = some (data.length, shards) ∧
      (shards.take k).flatten = data ++ List.replicate zeros (Byte.ofNat 0) ∧
      ∀ s ∈ shards, s.length = max ((data.length + k - 1) / k) 1 := by
  obtain ⟨e, inv, he, hf⟩ := fecEncode_spec data k n hk hkn hn
  have hcov := shardLen_covers data.length k hk
  refine ⟨_, k * shardLen data.length k - data.length, hf, ?_, ?_⟩
  · rw [← List.map_take, List.take_range, Nat.min_eq_left hkn]
    change _ = padTo data (k * shardLen data.length k)
    rw [← unflatten _ _ k (padTo_length _ _ hcov)]
    congr 1
    apply List.map_congr_left
    intro i hi
    have hik : i < k := by simpa using hi
    rw [unflatten _ _ k (padTo_length _ _ hcov)]
    unfold shardOf
    apply List.map_congr_left
    intro b hb
    rw [xorSum_eq]
    have : ∀ j ∈ Finset.range k, gmul (mget e i j)
        (rget (padTo data (k * shardLen data.length k)) (j * shardLen data.length k + b)) =
        if i = j then rget (padTo data (k * shardLen data.length k)) (j * shardLen data.length k + b) else 0 := by
      intro j hj
      rw [he.top i hik j (by simpa using hj), gmul_eq_mul]
      split <;> simp
    rw [Finset.sum_congr rfl this, Finset.sum_ite_eq, if_pos (by simpa using hik)]
  · intro s hs
    obtain ⟨i, -, rfl⟩ := List.mem_map.mp hs
    exact shardOf_length _ _ _ _ _

/-- **C35**: the arithmetic is that of the field with 256 elements: exclusive-or is addition, the
code's `mul` is an associative, commutative multiplication that distributes over it, and `div` undoes
`mul`. -/
theorem C35_field (a b c : Byte) :
    gmul a b = gmul b a ∧ gmul (gmul a b) c = gmul a (gmul b c) ∧
    gmul a (b.xor c) = (gmul a b).xor (gmul a c) ∧ gmul a (Byte.ofNat 1) = a ∧
    (b ≠ Byte.ofNat 0 → gdiv (gmul a b) b = a) := by
  refine ⟨gmul_comm a b, gmul_assoc a b c, gmul_xor a b c, gmul_one a, fun hb => ?_⟩
  by_cases ha : a = Byte.ofNat 0
  · subst ha; rw [gmul_zero_left]; simp [gdiv]
  · obtain ⟨la, la2⟩ := glog_facts a ha
    have lb := (glog_facts b hb).1
    rw [gmul_eq a b ha hb]
    unfold gdiv
    rw [if_neg (gexp_ne _ (by omega)), glog_gexp _ (by omega)]
    apply Byte.ext
    have h2 : ((glog a + glog b) % 255 + 255 - glog b) % 255 = glog a % 255 := by omega
    rw [gexp_gpw _ (by omega), gpw_mod, h2, ← gpw_mod, la2]

/-- **C35**: from a bag of frames — shards of any number of messages with distinct ids, interleaved
and repeated at will, among frames that are not shards — reconstruction returns a message with its
exact payload, if and only if some message has `k` distinct shards there. -/
theorem C35_reconstruct (sent : Nat → SentMsg) (arr : List Arrival) (hok : ∀ a ∈ arr, a.Ok sent)
    (order : List (Nat × ShardGroup) → List (Nat × ShardGroup)) (hord : ∀ l, (order l).Perm l) :
    (∀ id data, reconstructRedundant order (arr.map (Arrival.bytes sent)) = some (id, data) →
      data = (sent id).payload ∧ (sent id).k ≤ (indicesOf id arr).toFinset.card) ∧
    (reconstructRedundant order (arr.map (Arrival.bytes sent)) = none ↔
      ∀ id, indicesOf id arr ≠ [] → (indicesOf id arr).toFinset.card < (sent id).k) := by
  obtain ⟨h1, h2⟩ := reconstruct_spec sent arr hok order hord
  refine ⟨fun id data h => ⟨(h1 id data h).1, (h1 id data h).2.1⟩, h2, fun h => ?_⟩
  cases hq : reconstructRedundant order (arr.map (Arrival.bytes sent)) with
  | none => rfl
  | some q =>
    obtain ⟨-, e2, e3⟩ := h1 q.1 q.2 hq
    exact absurd (h q.1 e3) (by omega)

/-- Frames of two messages interleaved with bytes that are no shard. -/
example : let sent : Nat → SentMsg := fun id => if id = 0 then ⟨[7, 8, 9].map Byte.ofNat, 2, 3⟩ else ⟨[1].map Byte.ofNat, 2, 4⟩
    ∀ a ∈ [Arrival.shard 0 2, .other [], .shard 1 0, .shard 0 1], a.Ok sent := by
  intro sent a ha
  simp only [List.mem_cons, List.not_mem_nil, or_false] at ha
  rcases ha with rfl | rfl | rfl | rfl <;> simp [Arrival.Ok, SentMsg.Valid, sent, parseShard]

/-- The group of an id. -/
def groupFor (id : Nat) : List (Nat × ShardGroup) → Option ShardGroup
  | [] => none
  | (i, g) :: rest => if i = id then some g else groupFor id rest

theorem groupFor_mem (id : Nat) (gs : List (Nat × ShardGroup)) (g : ShardGroup)
    (h : groupFor id gs = some g) : (id, g) ∈ gs := by
  induction gs with
  | nil => simp [groupFor] at h
  | cons p gs ih =>
    obtain ⟨i, g'⟩ := p
    simp only [groupFor] at h
    split at h
    · rename_i e; simp at h; subst e h; simp
    · exact List.mem_cons_of_mem _ (ih h)

theorem groupFor_some (id : Nat) (gs : List (Nat × ShardGroup)) (h : id ∈ gs.map Prod.fst) :
    ∃ g, groupFor id gs = some g := by
  induction gs with
  | nil => simp at h
  | cons p gs ih =>
    obtain ⟨i, g'⟩ := p
    simp only [groupFor]
    by_cases e : i = id
    · exact ⟨g', if_pos e⟩
    · rw [if_neg e]; apply ih; simp only [List.map_cons, List.mem_cons] at h
      rcases h with h | h
      · exact absurd h.symm e
      · exact h

theorem groupFor_addShard_ne (id : Nat) (h : ShardHeader) (s : List Byte) (gs : List (Nat × ShardGroup))
    (hne : h.msgId ≠ id) : groupFor id (addShard h s gs) = groupFor id gs := by
  induction gs with
  | nil => simp [addShard, groupFor, hne]
  | cons p gs ih =>
    obtain ⟨i, g⟩ := p
    simp only [addShard]
    split
    · rename_i e; subst e
      split <;> simp [groupFor, hne]
    · simp only [groupFor, ih]

theorem groupFor_addShard_eq (id : Nat) (h : ShardHeader) (s : List Byte) (gs hs : List (Nat × ShardGroup))
    (he : h.msgId = id) (hgs : groupFor id gs = groupFor id hs) :
    groupFor id (addShard h s gs) = groupFor id (addShard h s hs) := by
  have key : ∀ l : List (Nat × ShardGroup), groupFor id (addShard h s l) =
      some (match groupFor id l with
        | none => ⟨h.k, h.n, h.origLen, [(h.index, s)]⟩
        | some g => if g.k = h.k ∧ g.n = h.n ∧ g.origLen = h.origLen ∧ h.index ∉ g.shards.map Prod.fst then
            { g with shards := g.shards ++ [(h.index, s)] } else g) := by
    intro l
    induction l with
    | nil => simp [addShard, groupFor, he]
    | cons p l ih =>
      obtain ⟨i, g⟩ := p
      simp only [addShard]
      by_cases e : i = h.msgId
      · rw [if_pos e]
        have e' : i = id := e.trans he
        split
        · rename_i hc; simp only [groupFor, e', if_true]; rw [if_pos hc]
        · rename_i hc; simp only [groupFor, e', if_true]; rw [if_neg hc]
      · rw [if_neg e]
        have e' : ¬ i = id := fun hc => e (hc.trans he.symm)
        simp only [groupFor, if_neg e']; exact ih
  rw [key, key, hgs]

/-- Specification: the frame claims to be a shard of message `id`. -/
def claims (id : Nat) (frame : List Byte) : Bool :=
  match parseShard frame with
  | none => false
  | some (h, _) => decide (h.msgId = id)

theorem groupFor_filter (id : Nat) (frames : List (List Byte)) :
    groupFor id (groupShards frames) = groupFor id (groupShards (frames.filter (claims id))) := by
  unfold groupShards
  have : ∀ gs hs, groupFor id gs = groupFor id hs →
      groupFor id (frames.foldl (fun gs bytes =>
        match parseShard bytes with
        | none => gs
        | some (h, s) => addShard h s gs) gs) =
      groupFor id ((frames.filter (claims id)).foldl (fun gs bytes =>
        match parseShard bytes with
        | none => gs
        | some (h, s) => addShard h s gs) hs) := by
    induction frames with
    | nil => intro gs hs h; exact h
    | cons f fs ih =>
      intro gs hs h
      cases hp : parseShard f with
      | none =>
        have : claims id f = false := by simp [claims, hp]
        rw [List.filter_cons_of_neg (by simp [this]), List.foldl_cons]
        simp only [hp]
        exact ih gs hs h
      | some q =>
        obtain ⟨hd, s⟩ := q
        by_cases e : hd.msgId = id
        · have : claims id f = true := by simp [claims, hp, e]
          rw [List.filter_cons_of_pos (by simp [this]), List.foldl_cons, List.foldl_cons]
          simp only [hp]
          exact ih _ _ (groupFor_addShard_eq id hd s gs hs e h)
        · have : claims id f = false := by simp [claims, hp, e]
          rw [List.filter_cons_of_neg (by simp [this]), List.foldl_cons]
          simp only [hp]
          exact ih _ _ (by rw [groupFor_addShard_ne id hd s gs e]; exact h)
  exact this [] [] rfl

theorem firstDecoded_ne (gs : List (Nat × ShardGroup)) (id : Nat) (g : ShardGroup) (h : (id, g) ∈ gs)
    (hk : g.shards.length ≥ g.k) (data : List Byte) (hd : fecDecode g.origLen g.k g.n g.shards = some data) :
    firstDecoded gs ≠ none := by
  induction gs with
  | nil => simp at h
  | cons p gs ih =>
    obtain ⟨i, g'⟩ := p
    simp only [firstDecoded]
    rcases List.mem_cons.mp h with e | h
    · simp only [Prod.mk.injEq] at e; obtain ⟨rfl, rfl⟩ := e
      rw [if_pos hk, hd]; simp
    · split
      · split
        · simp
        · exact ih h
      · exact ih h

theorem indicesOf_map (id : Nat) (idxs : List Nat) : indicesOf id (idxs.map (Arrival.shard id)) = idxs := by
  induction idxs with
  | nil => rfl
  | cons i rest ih => simp [indicesOf, ih]

/-- **C35**: frames claiming other message ids, however malformed or hostile, never keep a message
from being reconstructed: if the frames claiming id `id` are shards of the message sent under it, in
any order and with repeats, and `k` distinct ones are there, reconstruction returns something. -/
theorem C35_others_cannot_block (sent : Nat → SentMsg) (id : Nat) (frames : List (List Byte))
    (idxs : List Nat) (hok : ∀ i ∈ idxs, (Arrival.shard id i).Ok sent)
    (hf : frames.filter (claims id) = idxs.map fun i => (Arrival.shard id i).bytes sent)
    (hk : (sent id).k ≤ idxs.toFinset.card) (hne : idxs ≠ [])
    (order : List (Nat × ShardGroup) → List (Nat × ShardGroup)) (hord : ∀ l, (order l).Perm l) :
    reconstructRedundant order frames ≠ none := by
  have hok' : ∀ a ∈ idxs.map (Arrival.shard id), a.Ok sent := by
    intro a ha; obtain ⟨i, hi, rfl⟩ := List.mem_map.mp ha; exact hok i hi
  have hg := groups_ok sent (idxs.map (Arrival.shard id)) hok'
  have hmap : (idxs.map (Arrival.shard id)).map (Arrival.bytes sent) = frames.filter (claims id) := by
    rw [hf, List.map_map]; rfl
  rw [hmap] at hg
  have hix := indicesOf_map id idxs
  obtain ⟨g, hgf⟩ := groupFor_some id _ ((hg.has id).mpr (by rw [hix]; exact hne))
  have hgo := hg.ok _ (groupFor_mem id _ g hgf)
  obtain ⟨hlen, hdec⟩ := group_decode sent _ hok' id g hgo (by rw [hix]; exact hne)
  rw [hix] at hlen hdec
  rw [if_pos hk] at hdec
  have hmem := groupFor_mem id (groupShards frames) g (by rw [groupFor_filter]; exact hgf)
  refine firstDecoded_ne _ id g ((hord _).mem_iff.mpr hmem) ?_ _ hdec
  rw [hlen, hgo.k]; exact hk

/-- A hostile frame — a "shard" with `k = 0` — among a message's shards: the hypotheses are met. -/
example : let sent : Nat → SentMsg := fun _ => ⟨[7, 8, 9].map Byte.ofNat, 2, 3⟩
    let bad := frameShard 5 0 0 0 0 []
    [bad, (Arrival.shard 0 2).bytes sent, (Arrival.shard 0 0).bytes sent].filter (claims 0) =
      [2, 0].map fun i => (Arrival.shard 0 i).bytes sent := by
  decide +kernel

/-! ## C38 -/

/-- Everything an inbox hands over while these frames arrive. -/
def inboxDelivers (sent : Nat → SentMsg) (order : List (Nat × ShardGroup) → List (Nat × ShardGroup))
    (arr : List Arrival) : List (List Byte) :=
  (arr.foldl (fun s a => s.receive order (a.bytes sent)) ShardInbox.new).delivered

/-- **C38** (at least once, and nothing else): whatever arrives, in whatever order, what the inbox
hands over is the ordinary frames and payloads of redundant messages, byte for byte; and a message
is among them exactly when `k` distinct ones of its shards arrived.  Messages have distinct ids. -/
theorem C38_delivered (sent : Nat → SentMsg) (order : List (Nat × ShardGroup) → List (Nat × ShardGroup))
    (hord : ∀ l, (order l).Perm l) (arr : List Arrival) (hok : ∀ a ∈ arr, a.Ok sent) :
    ∃ out : List Handed, inboxDelivers sent order arr = out.map (Handed.bytes sent) ∧
      (∀ id, (sent id).Valid → (Handed.msg id ∈ out ↔ (sent id).k ≤ (indicesOf id arr).toFinset.card)) ∧
      (out.filterMap fun h => match h with | .other b => some b | .msg _ => none) =
        arr.filterMap fun a => match a with | .other b => some b | .shard _ _ => none := by
  refine ⟨handedOver sent (fun _ => []) arr, ?_, fun id hv => ?_, ?_⟩
  · have := inbox_run sent order hord arr ShardInbox.new (fun _ => []) hok (fun _ => rfl) (by simp)
    simpa [inboxDelivers, ShardInbox.new] using this
  · rw [← List.one_le_count_iff, count_handed]
    have := count_pos (sent id).k hv.1 (indicesOf id arr) [] (by have := hv.1; simp; omega)
    simpa using this
  · generalize (fun _ => []) = seen
    clear hok
    induction arr generalizing seen with
    | nil => rfl
    | cons a arr ih =>
      cases a with
      | other b => simp only [handedOver, List.filterMap_cons]; rw [ih]
      | shard id i =>
        simp only [handedOver, List.filterMap_cons]
        split
        · simp only [List.filterMap_cons]; exact ih _
        · exact ih _

/-- **C38** (exactly once): when fewer than twice `k` shards are sent and the network delivers none
of them twice, the message is handed over exactly once if `k` of them arrive, and otherwise never.
Missing for the full property: it fails without these two conditions, see the next theorem. -/
theorem C38_exactly_once_partial (sent : Nat → SentMsg)
    (order : List (Nat × ShardGroup) → List (Nat × ShardGroup))
    (hord : ∀ l, (order l).Perm l) (arr : List Arrival) (hok : ∀ a ∈ arr, a.Ok sent) :
    ∃ out : List Handed, inboxDelivers sent order arr = out.map (Handed.bytes sent) ∧
      ∀ id, (sent id).Valid → (sent id).n < 2 * (sent id).k → (indicesOf id arr).Nodup →
        out.count (.msg id) = if (sent id).k ≤ (indicesOf id arr).length then 1 else 0 := by
  refine ⟨handedOver sent (fun _ => []) arr, ?_, fun id hv hn hnd => ?_⟩
  · have := inbox_run sent order hord arr ShardInbox.new (fun _ => []) hok (fun _ => rfl) (by simp)
    simpa [inboxDelivers, ShardInbox.new] using this
  · rw [count_handed]
    have hlt : ∀ i ∈ indicesOf id arr, i < (sent id).n := by
      intro i hi
      clear hnd
      induction arr with
      | nil => simp [indicesOf] at hi
      | cons a arr ih =>
        have ih' := ih fun b hb => hok b (by simp [hb])
        cases a with
        | other b => exact ih' hi
        | shard id' j =>
          simp only [indicesOf] at hi
          split at hi
          · rename_i he
            subst he
            rcases List.mem_cons.mp hi with rfl | hi
            · exact (hok _ (by simp : Arrival.shard id' i ∈ _)).2.2
            · exact ih' hi
          · exact ih' hi
    have hlen : (indicesOf id arr).length ≤ (sent id).n := by
      rw [← List.toFinset_card_of_nodup hnd, ← Finset.card_range (sent id).n]
      apply Finset.card_le_card
      intro x hx
      rw [Finset.mem_range]
      exact hlt x (List.mem_toFinset.mp hx)
    have h1 := count_le_one (sent id).k (sent id).n hv.1 hn (indicesOf id arr) []
      (by have := hv.1; simp; omega) (by simpa using hnd) (by simpa using hlen)
    have h2 := count_pos (sent id).k hv.1 (indicesOf id arr) [] (by have := hv.1; simp; omega)
    rw [List.nil_append, List.toFinset_card_of_nodup hnd] at h2
    split <;> omega

/-- Three shards of a message needing two, one of them late. -/
example : let sent : Nat → SentMsg := fun _ => ⟨[7, 8, 9].map Byte.ofNat, 2, 3⟩
    (∀ a ∈ [Arrival.shard 0 2, .shard 0 0, .shard 0 1], a.Ok sent) ∧ (sent 0).n < 2 * (sent 0).k ∧
    (indicesOf 0 [Arrival.shard 0 2, .shard 0 0, .shard 0 1]).Nodup := by
  refine ⟨?_, by decide, by decide⟩
  intro a ha
  simp only [List.mem_cons, List.not_mem_nil, or_false] at ha
  rcases ha with rfl | rfl | rfl <;> simp [Arrival.Ok, SentMsg.Valid]

/-- **C38 fails**: of a message sent as `k = 1`, `n = 2`, both shards arrive, each once, and the
message is handed over twice. -/
theorem C38_twice_fails :
    inboxDelivers (fun _ => ⟨[5, 6].map Byte.ofNat, 1, 2⟩) id [.shard 0 0, .shard 0 1] =
      [[5, 6].map Byte.ofNat, [5, 6].map Byte.ofNat] := by decide +kernel

/-- **C38 fails** for two senders: message ids are counted per sender, from zero, and the receiver
groups by id alone.  Here two senders each send their first redundant message, `[1, 2]` and
`[3, 4]`; one shard of each arrives first, and the inbox hands over `[1, 4]`, which nobody sent. -/
theorem C38_two_senders_fails :
    let a := (frameRedundant 0 ([1, 2].map Byte.ofNat) 2 2).getD []
    let b := (frameRedundant 0 ([3, 4].map Byte.ofNat) 2 2).getD []
    ([a.getD 0 [], b.getD 1 []].foldl (fun s d => s.receive id d) ShardInbox.new).delivered =
      [[1, 4].map Byte.ofNat] := by decide +kernel

end Verif.Props
