import Verif.Proof.UnifyExpr
/-!
# The discrimination tree

Models `crates/logicaffeine_proof/src/discrimination.rs`.
-/

namespace Verif.Proof

/-- `Key` (`discrimination.rs:31-40`). -/
inductive Key where
  | sym (s : List Char) (arity : Nat)
  | star
  deriving DecidableEq

/-- `Node<T>` (`discrimination.rs:42-46`). The children of the code are a `BTreeMap`; here they are in
the order of their first insertion, so that only the order of the results differs. -/
inductive DNode (T : Type) where
  | mk (children : List (Key × DNode T)) (values : List T)

/-- `Node::default` (`discrimination.rs:48-52`). -/
def DNode.empty {T : Type} : DNode T := .mk [] []

/-- `node.children`. -/
def DNode.children {T : Type} : DNode T → List (Key × DNode T)
  | .mk c _ => c

/-- `node.values`. -/
def DNode.values {T : Type} : DNode T → List T
  | .mk _ v => v

/-- `children.get` (`BTreeMap::get`). -/
def getChild {T : Type} (k : Key) : List (Key × DNode T) → Option (DNode T)
  | [] => none
  | (k', n) :: cs => if k' = k then some n else getChild k cs

/-- `*children.entry(k).or_default()` changed by `f`. -/
def updChild {T : Type} (k : Key) (f : DNode T → DNode T) : List (Key × DNode T) → List (Key × DNode T)
  | [] => [(k, f .empty)]
  | (k', n) :: cs => if k' = k then (k', f n) :: cs else (k', n) :: updChild k f cs

/-- `insert_keys` (`discrimination.rs:101-107`). -/
def insertKeys {T : Type} : List Key → T → DNode T → DNode T
  | [], v, .mk cs vs => .mk cs (vs ++ [v])
  | k :: ks, v, .mk cs vs => .mk (updChild k (insertKeys ks v) cs) vs

/-- `jump[i]` (`discrimination.rs:117-140`) as the rest of the keys after `pending` complete
subterms; the recursion of `fill_jumps` is written with the number of subterms still to read. `none`
is the index out of range of `keys[i]`. -/
def jumpKeys : Nat → List Key → Option (List Key)
  | 0, ks => some ks
  | _ + 1, [] => none
  | n + 1, .star :: ks => jumpKeys n ks
  | n + 1, .sym _ a :: ks => jumpKeys (a + n) ks

/-- The subterms a key announces (`discrimination.rs:187-190`). -/
def Key.need : Key → Nat
  | .sym _ a => a
  | .star => 0

mutual
/-- `skip_pattern_subterm` (`discrimination.rs:179-194`). -/
def skipNode {T : Type} : DNode T → Nat → List (DNode T)
  | .mk cs vs, 0 => [.mk cs vs]
  | .mk cs _, n + 1 => skipChildren cs n

/-- Its loop over the children, `pending - 1 = n`. -/
def skipChildren {T : Type} : List (Key × DNode T) → Nat → List (DNode T)
  | [], _ => []
  | (k, c) :: cs, n => skipNode c (n + k.need) ++ skipChildren cs n
end

/-- `retrieve` (`discrimination.rs:142-176`) on the keys from position `i` on. The fuel is an upper
bound of their number, which falls with every call. A jump out of range (a panic) gives no results; it
does not happen on flattened queries (`C89_jumps`). -/
def retrieve {T : Type} : Nat → DNode T → List Key → List T
  | 0, node, _ => node.values
  | n + 1, node, ks => match ks with
    | [] => node.values
    | .sym s a :: ks' =>
      (match getChild (.sym s a) node.children with
        | some c => retrieve n c ks'
        | none => []) ++
      (match getChild .star node.children with
        | some c => (match jumpKeys 1 (.sym s a :: ks') with
          | some rest => retrieve n c rest
          | none => [])
        | none => [])
    | .star :: ks' => (skipNode node 1).flatMap fun l => retrieve n l ks'

mutual
/-- `flatten_term` (`discrimination.rs:196-214`). -/
def flattenTerm : Term → List Key
  | .var _ => [.star]
  | .const s => [.sym ('c' :: ':' :: s) 0]
  | .bound s => [.sym ('b' :: ':' :: s) 0]
  | .fn f args => .sym ('f' :: ':' :: f) args.length :: flattenTerms args
  | .group args => .sym ['(', ',', ')'] args.length :: flattenTerms args

/-- The loop over arguments. -/
def flattenTerms : List Term → List Key
  | [] => []
  | t :: ts => flattenTerm t ++ flattenTerms ts
end

/-- `flatten_expr` (`discrimination.rs:216-262`); everything that is not listed is opaque. -/
def flattenExpr : QExpr → List Key
  | .pred p args _ => .sym ('p' :: ':' :: p) args.length :: flattenTerms args
  | .ident l r => .sym ['='] 2 :: (flattenTerm l ++ flattenTerm r)
  | .atom s => [.sym ('a' :: ':' :: s) 0]
  | .bin .and l r => .sym ['∧'] 2 :: (flattenExpr l ++ flattenExpr r)
  | .bin .or l r => .sym ['∨'] 2 :: (flattenExpr l ++ flattenExpr r)
  | .bin .implies l r => .sym ['→'] 2 :: (flattenExpr l ++ flattenExpr r)
  | .bin .iff l r => .sym ['↔'] 2 :: (flattenExpr l ++ flattenExpr r)
  | .un .not p => .sym ['¬'] 1 :: flattenExpr p
  | _ => [.star]

/-- A pattern or query: a term or a formula. -/
inductive Pat where
  | term (t : Term)
  | expr (e : QExpr)

/-- `flatten_term`/`flatten_expr`. -/
def flattenPat : Pat → List Key
  | .term t => flattenTerm t
  | .expr e => flattenExpr e

/-- `insert_term`, `insert_expr` (`discrimination.rs:74-86`). -/
def insertPat {T : Type} (root : DNode T) (p : Pat) (v : T) : DNode T := insertKeys (flattenPat p) v root

/-- A tree built by a sequence of insertions. -/
def buildTree {T : Type} (l : List (Pat × T)) : DNode T :=
  l.foldl (fun n x => insertPat n x.1 x.2) .empty

/-- `candidates_term`, `candidates_expr` (`discrimination.rs:88-99`, `109-114`). -/
def candidates {T : Type} (root : DNode T) (q : Pat) : List T :=
  retrieve (flattenPat q).length root (flattenPat q)

end Verif.Proof
