import Verif.Model.Basic
/-
Model of src/iterator.rs: an index-based doubly linked list over a vector of slots, with cursors
stored inside the list.
-/
namespace Moledyn

/-- `Node`, src/iterator.rs:5-10. -/
structure Node where
  next : Option Nat
  prev : Option Nat
  alive : Bool
deriving DecidableEq, Repr

/-- `Node::list_with_length`, src/iterator.rs:29-46.  The three assignments of the Rust code (slot 0,
slot len-1, slots 1..=len-2) are written as one function of the index. -/
def Node.listWithLength (len : Nat) : List Node :=
  (List.range len).map fun i =>
    { next := if i + 1 < len then some (i + 1) else none
      prev := if 0 < i then some (i - 1) else none
      alive := true }

/-- `LinkedList<T>`, src/iterator.rs:50-57.  `current : [Option<usize>; 3]` is `c0 c1 c2`. -/
structure LList (α : Type) where
  links : List Node
  contents : List α
  head : Option Nat
  tail : Option Nat
  c0 : Option Nat
  c1 : Option Nat
  c2 : Option Nat
deriving DecidableEq, Repr

namespace LList
variable {α : Type}

/-- `LinkedList::new`, src/iterator.rs:61-69. -/
def new : LList α :=
  { links := [], contents := [], head := none, tail := none, c0 := none, c1 := none, c2 := none }

/-- `LinkedList::from`, src/iterator.rs:72-94. -/
def from' (contents : List α) : LList α :=
  { links := Node.listWithLength contents.length
    contents := contents
    head := if contents.length = 0 then none else some 0
    tail := if contents.length = 0 then none else some (contents.length - 1)
    c0 := none, c1 := none, c2 := none }

/-- `self.links[i]` used as an assignable place: `none` stands for the index-out-of-bounds panic
(src/iterator.rs:97-180). -/
def modNode (links : List Node) (i : Nat) (f : Node → Node) : Option (List Node) :=
  match links[i]? with
  | some nd => some (links.set i (f nd))
  | none => none

/-- `LinkedList::push`, src/iterator.rs:97-112. -/
def push (l : LList α) (content : α) : LList α × Res Unit :=
  let len := l.links.length
  match l.tail with
  | some idx =>
    match modNode l.links idx (fun nd => { nd with next := some len }) with
    | none => (l, .panic)
    | some links1 =>
      ({ l with
          links := links1 ++ [{ next := none, prev := some idx, alive := true }]
          tail := some len
          contents := l.contents ++ [content] }, .ok ())
  | none =>
      ({ l with
          head := some len
          tail := some len
          links := l.links ++ [{ next := none, prev := none, alive := true }]
          contents := l.contents ++ [content] }, .ok ())

/-- `LinkedList::del`, src/iterator.rs:115-140. -/
def del (l : LList α) (idx : Nat) : LList α × Res Unit :=
  match l.links[idx]? with
  | none => (l, .err .invalidArgumentInput)
  | some node =>
    if node.alive = false then (l, .err .invalidArgumentInput)
    else
      let links1 := l.links.set idx { node with alive := false }
      let mv := fun (c : Option Nat) => if c = some idx then node.next else c
      let l1 := { l with links := links1, c0 := mv l.c0, c1 := mv l.c1, c2 := mv l.c2 }
      let l2 : Option (LList α) :=
        match node.prev with
        | some prev =>
          (modNode l1.links prev (fun nd => { nd with next := node.next })).map
            (fun ls => { l1 with links := ls })
        | none => some { l1 with head := node.next }
      match l2 with
      | none => (l1, .panic)
      | some l2 =>
        let l3 : Option (LList α) :=
          match node.next with
          | some next =>
            (modNode l2.links next (fun nd => { nd with prev := node.prev })).map
              (fun ls => { l2 with links := ls })
          | none => some { l2 with tail := node.prev }
        match l3 with
        | none => (l2, .panic)
        | some l3 => (l3, .ok ())

/-- the loop body assignments of `connect_all`, src/iterator.rs:163-175: slot `i` of a list of length
`len ≥ 1` (also lines 152-155 for length 1). -/
def connNode (len i : Nat) : Node :=
  { next := if i + 1 < len then some (i + 1) else none
    prev := if 0 < i then some (i - 1) else none
    alive := true }

/-- `LinkedList::connect_all`, src/iterator.rs:143-179.  Every slot below `contents.len()` is
overwritten (in place, keeping possible further slots); an index past the end of `links` panics. -/
def connectAll (l : LList α) : LList α × Res Unit :=
  let len := l.contents.length
  if len = 0 then ({ l with head := none, tail := none }, .ok ())
  else if l.links.length < len then (l, .panic)
  else
    ({ l with
        head := some 0
        tail := some (len - 1)
        links := (List.range len).map (connNode len) ++ l.links.drop len }, .ok ())

/-- `LinkedList::into_iter`, src/iterator.rs:182-184. -/
def intoIter (l : LList α) : LList α := { l with c0 := l.head }

/-- `LinkedList::into_double_iter`, src/iterator.rs:186-189. -/
def intoDoubleIter (l : LList α) : LList α × Res Unit :=
  match l.head with
  | none => ({ l with c0 := l.head, c1 := none }, .ok ())
  | some x =>
    match l.links[x]? with
    | none => ({ l with c0 := l.head }, .panic)
    | some nd => ({ l with c0 := l.head, c1 := nd.next }, .ok ())

/-- `LinkedList::indicies`, src/iterator.rs:236-244. -/
def indicies (l : LList α) : LList α × Res (Option Nat) :=
  match l.c0 with
  | none => (l, .ok none)
  | some idx =>
    match l.links[idx]? with
    | none => (l, .panic)
    | some nd => ({ l with c0 := nd.next }, .ok (some idx))

/-- `LinkedList::enumerate`, src/iterator.rs:214-222. -/
def enumerate (l : LList α) : LList α × Res (Option (Nat × α)) :=
  match l.c0 with
  | none => (l, .ok none)
  | some idx =>
    match l.links[idx]? with
    | none => (l, .panic)
    | some nd =>
      let l1 := { l with c0 := nd.next }
      match l.contents[idx]? with
      | none => (l1, .panic)
      | some a => (l1, .ok (some (idx, a)))

/-- `LinkedList::get`, src/iterator.rs:192-200. -/
def get (l : LList α) : LList α × Res (Option α) :=
  match l.c0 with
  | none => (l, .ok none)
  | some idx =>
    match l.links[idx]? with
    | none => (l, .panic)
    | some nd =>
      let l1 := { l with c0 := nd.next }
      match l.contents[idx]? with
      | none => (l1, .panic)
      | some a => (l1, .ok (some a))

/-- `LinkedList::enumerate_mut` (src/iterator.rs:225-233) / `get_mut` (203-211) followed by the
caller's write `f` through the returned reference. -/
def enumerateMut (l : LList α) (f : α → α) : LList α × Res (Option (Nat × α)) :=
  match l.c0 with
  | none => (l, .ok none)
  | some idx =>
    match l.links[idx]? with
    | none => (l, .panic)
    | some nd =>
      let l1 := { l with c0 := nd.next }
      match l.contents[idx]? with
      | none => (l1, .panic)
      | some a => ({ l1 with contents := l1.contents.set idx (f a) }, .ok (some (idx, a)))

/-- `LinkedList::indicies_double`, src/iterator.rs:291-311. -/
def indiciesDouble (l : LList α) : LList α × Res (Option (Nat × Nat)) :=
  match l.c0 with
  | none => (l, .ok none)
  | some idx1 =>
    match l.c1 with
    | none => (l, .ok none)
    | some idx =>
      match l.tail with
      | none => (l, .panic)
      | some t =>
        if idx = t then
          match l.links[idx1]? with
          | none => (l, .panic)
          | some nd1 =>
            match nd1.next with
            | none => ({ l with c0 := none, c1 := none }, .ok (some (idx1, idx)))
            | some x =>
              match l.links[x]? with
              | none => ({ l with c0 := some x }, .panic)
              | some ndx => ({ l with c0 := some x, c1 := ndx.next }, .ok (some (idx1, idx)))
        else
          match l.links[idx]? with
          | none => (l, .panic)
          | some nd => ({ l with c1 := nd.next }, .ok (some (idx1, idx)))

/-- `LinkedList::enumerate_double` (src/iterator.rs:269-288) and, dropping the indices,
`get_double` (247-266): same cursor moves as `indicies_double`, then both contents are looked up. -/
def enumerateDouble (l : LList α) : LList α × Res (Option (Nat × α × Nat × α)) :=
  match indiciesDouble l with
  | (l1, .ok none) => (l1, .ok none)
  | (l1, .ok (some (i, j))) =>
    match l1.contents[i]?, l1.contents[j]? with
    | some a, some b => (l1, .ok (some (i, a, j, b)))
    | _, _ => (l1, .panic)
  | (l1, .err e) => (l1, .err e)
  | (l1, .panic) => (l1, .panic)

/-- `LinkedList::get_double`, src/iterator.rs:247-266. -/
def getDouble (l : LList α) : LList α × Res (Option (α × α)) :=
  match indiciesDouble l with
  | (l1, .ok none) => (l1, .ok none)
  | (l1, .ok (some (i, j))) =>
    match l1.contents[i]?, l1.contents[j]? with
    | some a, some b => (l1, .ok (some (a, b)))
    | _, _ => (l1, .panic)
  | (l1, .err e) => (l1, .err e)
  | (l1, .panic) => (l1, .panic)

end LList

/-- the part of the trait `Merge` (src/agent_mod/mod.rs:47-56) used by `LinkedList::merge`. -/
structure MergeOps (α : Type) where
  size : α → Nat
  addSize : α → Nat → α × Res Unit

namespace LList
variable {α : Type}

/-- `LinkedList::merge`, src/iterator.rs:316-321. -/
def merge (m : MergeOps α) (l : LList α) (idx1 idx2 : Nat) : LList α × Res Unit :=
  match l.contents[idx2]? with
  | none => (l, .panic)
  | some b =>
    match l.contents[idx1]? with
    | none => (l, .panic)
    | some a =>
      let r := m.addSize a (m.size b)
      let l1 := { l with contents := l.contents.set idx1 r.1 }
      match r.2 with
      | .ok () => l1.del idx2
      | .err e => (l1, .err e)
      | .panic => (l1, .panic)

/-- one `while let Some(cont) = self.get_mut(){ cont.clear() }` loop, src/iterator.rs:327-332.
The loop is fuelled; the third component tells whether it ended by `None`. -/
def mapSweep (f : α → α) : Nat → LList α → LList α × Bool
  | 0, l => (l, false)
  | n + 1, l =>
    match l.enumerateMut f with
    | (l1, .ok (some _)) => mapSweep f n l1
    | (l1, .ok none) => (l1, true)
    | (l1, _) => (l1, false)

/-- `LinkedList<Position<T>>::clear`, src/iterator.rs:325-333, with `f` = `Position::clear`. -/
def clearAll (f : α → α) (fuel : Nat) (l : LList α) : LList α × Bool :=
  mapSweep f fuel l.intoIter

/-- A call of the public interface.  `nextMut f` is `get_mut`/`enumerate_mut` with the caller's write
`f`; `next` is `get`/`enumerate`/`indicies`; `nextPair` is the `_double` family (src/iterator.rs:59-330). -/
inductive Op (α : Type) where
  | push (a : α)
  | del (i : Nat)
  | connectAll
  | intoIter
  | intoDoubleIter
  | next
  | nextMut (f : α → α)
  | nextPair

/-- What a call lets the caller see (src/iterator.rs:59-330). -/
inductive Out (α : Type) where
  | done (r : Res Unit)
  | item (r : Res (Option (Nat × α)))
  | pair (r : Res (Option (Nat × α × Nat × α)))
deriving DecidableEq

/-- one call (src/iterator.rs:59-330). -/
def step (l : LList α) : Op α → LList α × Out α
  | .push a => let r := l.push a; (r.1, .done r.2)
  | .del i => let r := l.del i; (r.1, .done r.2)
  | .connectAll => let r := l.connectAll; (r.1, .done r.2)
  | .intoIter => (l.intoIter, .done (.ok ()))
  | .intoDoubleIter => let r := l.intoDoubleIter; (r.1, .done r.2)
  | .next => let r := l.enumerate; (r.1, .item r.2)
  | .nextMut f => let r := l.enumerateMut f; (r.1, .item r.2)
  | .nextPair => let r := l.enumerateDouble; (r.1, .pair r.2)

/-- a whole history of calls, with everything the caller saw (src/iterator.rs:59-330). -/
def run (l : LList α) : List (Op α) → LList α × List (Out α)
  | [] => (l, [])
  | op :: ops =>
    let r := l.step op
    let rest := run r.1 ops
    (rest.1, r.2 :: rest.2)

end LList
end Moledyn
