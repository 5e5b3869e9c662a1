import Verif.Lsp.LineIndex

/-!
# Model of the semantic token wire form (`crates/logicaffeine_lsp/src/semantic_tokens.rs`)

`encode_spans` (180–206), `semantic_token_edits` (464–490), and the requests for tokens and for
changes of tokens (`server.rs` 390–437, `state.rs` 49–65).  Numbers are unbounded where the code has
32 bits; subtraction below zero panics (`none`), which is what a build with overflow checks does.
-/
namespace Verif.Lsp

/-- `(Span, u32, u32)`. -/
structure Paint where
  start : Nat
  stop : Nat
  type : Nat
  mods : Nat
deriving DecidableEq, Repr

/-- `SemanticToken`. -/
structure Tok where
  deltaLine : Nat
  deltaStart : Nat
  length : Nat
  type : Nat
  mods : Nat
deriving DecidableEq, Repr

/-- The loop of `encode_spans` (`semantic_tokens.rs` 184–204). -/
def encodeFrom (cs : List Char) : Nat → Nat → List Paint → Option (List Tok)
  | _, _, [] => some []
  | prevLine, prevStart, p :: ps =>
    (position cs p.start).bind fun pos =>
      (utf16Length cs p.start p.stop).bind fun len =>
        if len = 0 then encodeFrom cs prevLine prevStart ps
        else if pos.1 < prevLine then none
        else if pos.1 - prevLine = 0 ∧ pos.2 < prevStart then none
        else
          let dl := pos.1 - prevLine
          let ds := if dl = 0 then pos.2 - prevStart else pos.2
          (encodeFrom cs pos.1 pos.2 ps).map (⟨dl, ds, len, p.type, p.mods⟩ :: ·)

/-- `encode_spans` (`semantic_tokens.rs` 180–206). -/
def encodeSpans (cs : List Char) (ps : List Paint) : Option (List Tok) := encodeFrom cs 0 0 ps

/-- `SemanticTokensEdit`. -/
structure TokEdit where
  start : Nat
  deleteCount : Nat
  data : List Tok

/-- `zip(..).take_while(|(a, b)| a == b).count()`. -/
def common : List Tok → List Tok → Nat
  | a :: as, b :: bs => if a = b then common as bs + 1 else 0
  | _, _ => 0

/-- `semantic_token_edits` (`semantic_tokens.rs` 464–490). -/
def tokenEdits (prev next : List Tok) : List TokEdit :=
  let pre := common prev next
  if pre = prev.length ∧ pre = next.length then []
  else
    let maxSuffix := min prev.length next.length - pre
    let suf := min (common prev.reverse next.reverse) maxSuffix
    [⟨pre * 5, (prev.length - pre - suf) * 5, (next.take (next.length - suf)).drop pre⟩]

/-- The token part of `ServerState` for one document (`state.rs` 15–20): the last emission with its
number, and the next number. -/
structure TokState where
  cache : Option (Nat × List Tok)
  next : Nat

/-- What the server answers. -/
inductive Answer where
  | full (id : Nat) (data : List Tok)
  | delta (id : Nat) (edits : List TokEdit)

/-- `semantic_tokens_full` (`server.rs` 390–409). -/
def TokState.full (s : TokState) (data : List Tok) : TokState × Answer :=
  (⟨some (s.next, data), s.next + 1⟩, .full s.next data)

/-- `semantic_tokens_full_delta` (`server.rs` 411–437). -/
def TokState.delta (s : TokState) (previousId : Nat) (data : List Tok) : TokState × Answer :=
  let s' : TokState := ⟨some (s.next, data), s.next + 1⟩
  match s.cache with
  | some (id, old) =>
    if id = previousId then (s', .delta s.next (tokenEdits old data)) else (s', .full s.next data)
  | none => (s', .full s.next data)

/-- `close_document` (`state.rs` 67–70). -/
def TokState.close (s : TokState) : TokState := { s with cache := none }

/-- `ServerState::new` (`state.rs` 23–29). -/
def TokState.init : TokState := ⟨none, 1⟩

end Verif.Lsp
