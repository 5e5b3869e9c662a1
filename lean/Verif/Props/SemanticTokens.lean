import Verif.Lsp.SemanticTokens
import Verif.Props.LineIndex

/-!
# C106: the client paints what the server classified

Specification: the protocol.  A token's line counts from the token before, its character from the
token before on the same line or else from the start of the line; tokens travel as five numbers each,
and an edit replaces a run of those numbers by others.
-/
namespace Verif.Props
open Verif.Lsp

/-- What a client paints: line, character, length, type, modifiers. -/
structure Painted where
  line : Nat
  char : Nat
  length : Nat
  type : Nat
  mods : Nat
deriving DecidableEq, Repr

/-- How a client reads tokens. -/
def decode (line char : Nat) : List Tok → List Painted
  | [] => []
  | t :: ts =>
    let l := line + t.deltaLine
    let c := if t.deltaLine = 0 then char + t.deltaStart else t.deltaStart
    ⟨l, c, t.length, t.type, t.mods⟩ :: decode l c ts

/-- The numbers on the wire. -/
def wire (ts : List Tok) : List Nat :=
  ts.flatMap fun t => [t.deltaLine, t.deltaStart, t.length, t.type, t.mods]

/-- How a client applies an edit. -/
def applyEdit (ns : List Nat) (e : TokEdit) : List Nat :=
  ns.take e.start ++ wire e.data ++ ns.drop (e.start + e.deleteCount)

/-- A classified piece of a text: what is before it and the piece. -/
structure Piece where
  pre : List Char
  mid : List Char
  type : Nat
  mods : Nat

/-- The span of a piece. -/
def Piece.paint (p : Piece) : Paint := ⟨blen p.pre, blen (p.pre ++ p.mid), p.type, p.mods⟩

/-- Where a piece is to be painted. -/
def Piece.painted (p : Piece) : Painted :=
  ⟨p.pre.count '\n', ulen (lastLine p.pre), ulen p.mid, p.type, p.mods⟩

theorem lastLine_append (a b : List Char) :
    lastLine (a ++ b) = if '\n' ∈ b then lastLine b else lastLine a ++ b := by
  unfold lastLine
  rw [List.reverse_append, List.takeWhile_append]
  by_cases h : '\n' ∈ b
  · rw [if_pos h, if_neg]
    intro hl
    have := List.takeWhile_prefix (l := b.reverse) (fun x => decide (x ≠ '\n'))
    have := this.eq_of_length hl
    have hall := List.all_takeWhile (p := fun x => decide (x ≠ '\n')) (l := b.reverse)
    rw [this, List.all_eq_true] at hall
    simpa using hall '\n' (List.mem_reverse.2 h)
  · have : b.reverse.takeWhile (fun x => decide (x ≠ '\n')) = b.reverse := by
      have key : ∀ l : List Char, '\n' ∉ l → l.takeWhile (fun x => decide (x ≠ '\n')) = l := by
        intro l hl
        induction l with
        | nil => rfl
        | cons c l ih =>
          rw [List.mem_cons, not_or] at hl
          rw [List.takeWhile_cons_of_pos (by simpa using fun hh => hl.1 hh.symm), ih hl.2]
      exact key _ (by simpa using h)
    rw [if_neg h, this]
    simp

theorem ulen_pos {l : List Char} (h : l ≠ []) : 0 < ulen l := by
  cases l with
  | nil => exact absurd rfl h
  | cons c l => have := units_pos c; simp only [ulen]; omega

theorem encode_decode (cs : List Char) : ∀ (ps : List Piece) (prev : List Char) (line char : Nat),
    (∀ p ∈ ps, ∃ suf, cs = p.pre ++ p.mid ++ suf) →
    (∀ p ∈ ps, prev <+: p.pre) → ps.Pairwise (fun p q => p.pre <+: q.pre) →
    line = prev.count '\n' → char = ulen (lastLine prev) →
    ∃ ts, encodeFrom cs line char (ps.map Piece.paint) = some ts ∧
      decode line char ts = (ps.filter (·.mid ≠ [])).map Piece.painted := by
  intro ps
  induction ps with
  | nil => intro prev line char _ _ _ _ _; exact ⟨[], rfl, rfl⟩
  | cons p ps ih =>
    intro prev line char hcs hpre hpw hl hch
    obtain ⟨suf, hp⟩ := hcs p (by simp)
    obtain ⟨gap, hgap⟩ := hpre p (by simp)
    have hpos : position cs (blen p.pre) = some (p.pre.count '\n', ulen (lastLine p.pre)) := by
      rw [hp, List.append_assoc]; exact C103_position _ _
    have hlen : utf16Length cs (blen p.pre) (blen (p.pre ++ p.mid)) = some (ulen p.mid) := by
      rw [hp]; exact C103_utf16_length _ _ _
    simp only [List.map_cons, encodeFrom, Piece.paint, hpos, hlen, Option.bind_some]
    by_cases hm : p.mid = []
    · rw [if_pos (by rw [hm]; rfl), List.filter_cons_of_neg (by simp [hm])]
      exact ih prev line char (fun q hq => hcs q (by simp [hq])) (fun q hq => hpre q (by simp [hq]))
        (List.pairwise_cons.1 hpw).2 hl hch
    · have := ulen_pos hm
      rw [if_neg (by omega), List.filter_cons_of_pos (by simp [hm])]
      have hcount : p.pre.count '\n' = line + gap.count '\n' := by
        rw [← hgap, List.count_append, hl]
      rw [if_neg (by rw [hcount]; omega)]
      have hsame : p.pre.count '\n' - line = 0 → char ≤ ulen (lastLine p.pre) := by
        intro h0
        have : '\n' ∉ gap := by
          intro hmem
          have := List.count_pos_iff.2 hmem
          omega
        rw [← hgap, lastLine_append, if_neg this, ulen_append, hch]
        omega
      rw [if_neg (by intro ⟨h0, h1⟩; have := hsame h0; omega)]
      obtain ⟨ts, h1, h2⟩ := ih p.pre _ _ (fun q hq => hcs q (by simp [hq]))
        (fun q hq => (List.pairwise_cons.1 hpw).1 q hq) (List.pairwise_cons.1 hpw).2 rfl rfl
      refine ⟨_, by rw [h1]; rfl, ?_⟩
      simp only [decode, List.map_cons]
      have e1 : line + (p.pre.count '\n' - line) = p.pre.count '\n' := by omega
      by_cases h0 : p.pre.count '\n' - line = 0
      · have e2 := hsame h0
        have e3 : char + (ulen (lastLine p.pre) - char) = ulen (lastLine p.pre) := by omega
        simp only [h0, if_true, e3]
        rw [h0] at e1
        rw [e1, h2]; rfl
      · simp only [if_neg h0, e1, h2]; rfl

/-- **C106, tokens.**  For every text and every list of classified pieces of it that come
in the order of the text, encoding does not fail, and a client that decodes the tokens paints exactly
the pieces that are not empty, at their places, with their lengths, types and modifiers.  (Out of
order it does fail: `C106_order_needed`.) -/
theorem C106_tokens (cs : List Char) (ps : List Piece)
    (hcs : ∀ p ∈ ps, ∃ suf, cs = p.pre ++ p.mid ++ suf)
    (hord : ps.Pairwise (fun p q => p.pre <+: q.pre)) :
    ∃ ts, encodeSpans cs (ps.map Piece.paint) = some ts ∧
      decode 0 0 ts = (ps.filter (·.mid ≠ [])).map Piece.painted :=
  encode_decode cs ps [] 0 0 hcs (fun _ _ => List.nil_prefix) hord rfl rfl

theorem common_spec : ∀ a b : List Tok, common a b ≤ a.length ∧ common a b ≤ b.length ∧
    a.take (common a b) = b.take (common a b)
  | [], _ => by simp [common]
  | _ :: _, [] => by simp [common]
  | x :: a, y :: b => by
    have := common_spec a b
    simp only [common]
    split
    · rename_i h
      subst h
      refine ⟨by simp; omega, by simp; omega, ?_⟩
      simp [this.2.2]
    · simp

theorem wire_append (a b : List Tok) : wire (a ++ b) = wire a ++ wire b := by simp [wire]

theorem wire_length (a : List Tok) : (wire a).length = a.length * 5 := by
  induction a with
  | nil => rfl
  | cons t a ih =>
    simp only [wire, List.flatMap_cons, List.length_append, List.length_cons, List.length_nil] at ih ⊢
    omega

theorem wire_take (a : List Tok) (n : Nat) : (wire a).take (n * 5) = wire (a.take n) := by
  by_cases h : n ≤ a.length
  · conv => lhs; rw [← List.take_append_drop n a, wire_append]
    rw [List.take_append_of_le_length (by rw [wire_length, List.length_take]; omega),
      List.take_of_length_le (by rw [wire_length, List.length_take]; omega)]
  · rw [List.take_of_length_le (by rw [wire_length]; omega), List.take_of_length_le (by omega)]

theorem wire_drop (a : List Tok) (n : Nat) : (wire a).drop (n * 5) = wire (a.drop n) := by
  have h := wire_take a n
  have h1 : wire a = wire (a.take n) ++ wire (a.drop n) := by
    rw [← wire_append, List.take_append_drop]
  have h2 : (wire a).take (n * 5) ++ (wire a).drop (n * 5) = wire (a.take n) ++ wire (a.drop n) := by
    rw [List.take_append_drop, ← h1]
  rw [h] at h2
  exact List.append_cancel_left h2

/-- **C106, edits.**  For all two token lists, applying the edits to the numbers of the first gives
the numbers of the second. -/
theorem C106_edits (prev next : List Tok) :
    (tokenEdits prev next).foldl applyEdit (wire prev) = wire next := by
  unfold tokenEdits
  simp only
  obtain ⟨p1, p2, p3⟩ := common_spec prev next
  obtain ⟨s1, s2, s3⟩ := common_spec prev.reverse next.reverse
  rw [List.length_reverse] at s1 s2
  generalize common prev next = p at *
  generalize common prev.reverse next.reverse = s at *
  split
  · rename_i h
    have : prev = next := by
      rw [h.1, List.take_length, ← h.1, h.2, List.take_length] at p3
      exact p3
    simp [this]
  · generalize hs' : min s (min prev.length next.length - p) = s'
    have hs1 : s' ≤ s := by omega
    have hs2 : p + s' ≤ prev.length := by omega
    have hs3 : p + s' ≤ next.length := by omega
    have hsuf : prev.drop (prev.length - s') = next.drop (next.length - s') := by
      have h1 : prev.reverse.take s' = next.reverse.take s' := by
        have := congrArg (List.take s') s3
        rwa [List.take_take, List.take_take, Nat.min_eq_left hs1] at this
      rw [List.take_reverse, List.take_reverse] at h1
      exact List.reverse_inj.1 h1
    simp only [List.foldl_cons, List.foldl_nil, applyEdit]
    rw [← Nat.add_mul, wire_take, wire_drop, show p + (prev.length - p - s') = prev.length - s' by omega,
      hsuf, p3, ← wire_append, ← wire_append]
    congr 1
    have : next.take p = (next.take (next.length - s')).take p := by
      rw [List.take_take, Nat.min_eq_left (by omega)]
    rw [this, List.take_append_drop, List.take_append_drop]

/-- A request for tokens: of the current ones, or of the change since the answer with a given number;
or the document is closed. -/
inductive Ask where
  | full (data : List Tok)
  | delta (previousId : Nat) (data : List Tok)
  | close

/-- The numbers a client makes of an answer, given what it kept of earlier answers. -/
def received (kept : List (Nat × List Nat)) (previousId : Nat) : Answer → Option (Nat × List Nat)
  | .full id data => some (id, wire data)
  | .delta id edits => (kept.lookup previousId).map fun old => (id, edits.foldl applyEdit old)

/-- A client that keeps everything it received, with the server it asks; `none` if it is told of a
change to something it never received. -/
def session (s : TokState) (kept : List (Nat × List Nat)) :
    List Ask → Option (List (Nat × List Nat))
  | [] => some kept
  | .full data :: as =>
    let (s', a) := s.full data
    (received kept 0 a).bind fun r => session s' (r :: kept) as
  | .delta id data :: as =>
    let (s', a) := s.delta id data
    (received kept id a).bind fun r => session s' (r :: kept) as
  | .close :: as => session s.close kept as

/-- The tokens each request was about. -/
def asked : List Ask → List (List Tok)
  | [] => []
  | .full data :: as => data :: asked as
  | .delta _ data :: as => data :: asked as
  | .close :: as => asked as

theorem session_right : ∀ (as : List Ask) (s : TokState) (kept : List (Nat × List Nat)),
    (∀ id data, s.cache = some (id, data) → kept.lookup id = some (wire data)) →
    (∀ id v, (id, v) ∈ kept → id < s.next) →
    ∃ all, session s kept as = some all ∧
      all.map (·.2) = ((asked as).reverse.map wire) ++ kept.map (·.2) := by
  intro as
  induction as with
  | nil => intro s kept _ _; exact ⟨kept, rfl, by simp [asked]⟩
  | cons a as ih =>
    intro s kept h1 h2
    cases a with
    | close =>
      simp only [session, asked]
      exact ih s.close kept (by simp [TokState.close]) (by simpa [TokState.close] using h2)
    | full data =>
      simp only [session, asked, TokState.full, received, Option.bind_some]
      obtain ⟨all, e1, e2⟩ := ih ⟨some (s.next, data), s.next + 1⟩ ((s.next, wire data) :: kept)
        (by intro id d h; cases h; simp)
        (by intro id v h
            rcases List.mem_cons.1 h with h | h
            · cases h; exact Nat.lt_succ_self _
            · exact Nat.lt_succ_of_lt (h2 _ _ h))
      exact ⟨all, e1, by rw [e2]; simp⟩
    | delta id data =>
      have key : ∃ r, received kept id (s.delta id data).2 = some r ∧ r = (s.next, wire data) ∧
          (s.delta id data).1 = ⟨some (s.next, data), s.next + 1⟩ := by
        unfold TokState.delta
        split
        · rename_i i old hc
          split
          · rename_i hi
            subst hi
            simp only [received, h1 _ _ hc, Option.map_some, C106_edits]
            exact ⟨_, rfl, rfl, trivial⟩
          · exact ⟨_, rfl, rfl, rfl⟩
        · exact ⟨_, rfl, rfl, rfl⟩
      obtain ⟨r, k1, rfl, k2⟩ := key
      simp only [session, asked]
      rw [k1, k2]
      simp only [Option.bind_some]
      obtain ⟨all, e1, e2⟩ := ih ⟨some (s.next, data), s.next + 1⟩ ((s.next, wire data) :: kept)
        (by intro id d h; cases h; simp)
        (by intro id v h
            rcases List.mem_cons.1 h with h | h
            · cases h; exact Nat.lt_succ_self _
            · exact Nat.lt_succ_of_lt (h2 _ _ h))
      exact ⟨all, e1, by rw [e2]; simp⟩

/-- **C106, any history of requests.**  Whatever a client asks for and whichever earlier answer it
names, also one it never received, each answer gives it the numbers of the tokens at that moment. -/
theorem C106_history (as : List Ask) :
    ∃ all, session TokState.init [] as = some all ∧ all.map (·.2) = (asked as).reverse.map wire := by
  obtain ⟨all, h1, h2⟩ := session_right as TokState.init [] (by simp [TokState.init]) (by simp)
  exact ⟨all, h1, by simpa using h2⟩

/-! ## Concrete cases -/

example : ∃ (cs : List Char) (ps : List Piece), ps.length = 3 ∧
    (∀ p ∈ ps, ∃ suf, cs = p.pre ++ p.mid ++ suf) ∧
    ps.Pairwise (fun p q => p.pre <+: q.pre) ∧
    encodeSpans cs (ps.map Piece.paint) = some [⟨0, 0, 2, 0, 0⟩, ⟨0, 3, 1, 3, 1⟩, ⟨1, 1, 2, 5, 0⟩] := by
  refine ⟨['𝔸', ' ', 'b', '\n', ' ', 'c', 'd'],
    [⟨[], ['𝔸'], 0, 0⟩, ⟨['𝔸', ' '], ['b'], 3, 1⟩, ⟨['𝔸', ' ', 'b', '\n', ' '], ['c', 'd'], 5, 0⟩],
    rfl, ?_, ?_, by decide +kernel⟩
  · intro p hp
    simp only [List.mem_cons, List.not_mem_nil, or_false] at hp
    rcases hp with rfl | rfl | rfl
    · exact ⟨_, rfl⟩
    · exact ⟨_, rfl⟩
    · exact ⟨[], rfl⟩
  · decide +kernel

example : (tokenEdits [⟨0, 0, 2, 0, 0⟩, ⟨0, 3, 1, 3, 1⟩, ⟨1, 1, 2, 5, 0⟩]
    [⟨0, 0, 2, 0, 0⟩, ⟨2, 3, 1, 3, 1⟩, ⟨0, 7, 1, 3, 1⟩, ⟨1, 1, 2, 5, 0⟩]).map (fun e =>
      (e.start, e.deleteCount, e.data.length)) = [(5, 5, 2)] := by decide +kernel

/-- Pieces that are not in the order of the text make the distance to the token before negative: on a
build with overflow checks the request panics.  (The lexer, which is not modelled, gives tokens in
order.) -/
theorem C106_order_needed :
    encodeSpans ['a', 'b'] [Piece.paint ⟨['a'], ['b'], 0, 0⟩, Piece.paint ⟨[], ['a'], 0, 0⟩] = none := by
  decide +kernel

end Verif.Props
