import Verif.Model.LinkedList
/-
Plain-language vocabulary for the linked-list properties: which slots are live after a history,
what a user's loop over the list collects, and what it should collect.
-/
namespace Moledyn
namespace LList
variable {α : Type}

/-! ### which slots are live after a history of calls -/

/-- Effect of one call on (number of slots ever created, live slots in order). -/
def liveStep (p : Nat × List Nat) : Op α → Nat × List Nat
  | .push _ => (p.1 + 1, p.2 ++ [p.1])
  | .del i => (p.1, p.2.filter (· ≠ i))
  | .connectAll => (p.1, List.range p.1)
  | _ => p

/-- (slots, live slots) of a list started as `from(v)` with `n = v.len()` after the calls `ops`. -/
def liveAfter (n : Nat) (ops : List (Op α)) : Nat × List Nat :=
  ops.foldl liveStep (n, List.range n)

/-! ### user loops -/

/-- `while let Some(i) = list.indicies() { collect i }`; the flag says that the loop ended by itself. -/
def collect : Nat → LList α → List Nat × Bool
  | 0, _ => ([], false)
  | fuel + 1, l =>
    match l.indicies with
    | (l1, .ok (some i)) => let r := collect fuel l1; (i :: r.1, r.2)
    | (_, .ok none) => ([], true)
    | (_, _) => ([], false)

/-- `while let Some((i,j)) = list.indicies_double() { collect (i,j) }`. -/
def collectPairs : Nat → LList α → List (Nat × Nat) × Bool
  | 0, _ => ([], false)
  | fuel + 1, l =>
    match l.indiciesDouble with
    | (l1, .ok (some p)) => let r := collectPairs fuel l1; (p :: r.1, r.2)
    | (_, .ok none) => ([], true)
    | (_, _) => ([], false)

/-- delete several slots, ignoring whether each `del` succeeded. -/
def delMany (l : LList α) (ds : List Nat) : LList α := ds.foldl (fun l d => (l.del d).1) l

/-- a sweep in which, after each call of `indicies`, the slots of the next batch are deleted. -/
def sweepDeleting : List (List Nat) → LList α → List (Res (Option Nat))
  | [], _ => []
  | ds :: rest, l => l.indicies.2 :: sweepDeleting rest (l.indicies.1.delMany ds)

/-- What such a sweep should return: each time the least slot that is live now and not below `nxt`
(one more than the last returned slot). -/
def sweepSpec : List (List Nat) → List Nat → Nat → List (Res (Option Nat))
  | [], _, _ => []
  | ds :: rest, live, nxt =>
    let r := live.find? (nxt ≤ ·)
    .ok r :: sweepSpec rest (live.filter (· ∉ ds)) (match r with | some i => i + 1 | none => nxt)

/-- every unordered pair of a list, each once, in lexicographic order. -/
def pairsOf : List Nat → List (Nat × Nat)
  | [] => []
  | i :: t => t.map (fun j => (i, j)) ++ pairsOf t

/-- a pair sweep in which the partner `j` of the pair just returned is deleted when the caller
decides so (`true`), as `merge(i, j)` does.  Stops when `None` is returned (flag) or decisions end. -/
def mergeSweep : List Bool → LList α → List (Nat × Nat) × Bool
  | [], _ => ([], false)
  | d :: ds, l =>
    match l.indiciesDouble with
    | (l1, .ok (some p)) =>
      let r := mergeSweep ds (if d then (l1.del p.2).1 else l1)
      (p :: r.1, r.2)
    | (_, .ok none) => ([], true)
    | (_, _) => ([], false)

/-- What it should return: pairs in order, dropping every later pair that contains a deleted slot. -/
def mergeSpec : List Bool → List (Nat × Nat) → List (Nat × Nat) × Bool
  | [], _ => ([], false)
  | _ :: _, [] => ([], true)
  | d :: ds, p :: ps =>
    let r := mergeSpec ds (if d then ps.filter (fun q => q.1 ≠ p.2 ∧ q.2 ≠ p.2) else ps)
    (p :: r.1, r.2)

/-- slots deleted by a merge sweep: partners of returned pairs whose decision was `true` -/
def mergedAway (ds : List Bool) (pairs : List (Nat × Nat)) : List Nat :=
  (ds.zip pairs).filterMap fun x => if x.1 then some x.2.2 else none

/-- the slots a sweep returned, in order. -/
def gotSlots (rs : List (Res (Option Nat))) : List Nat :=
  rs.filterMap fun r => match r with | .ok (some i) => some i | _ => none

/-- the live slots left after a sequence of merges. -/
def liveAfterMerges (live : List Nat) (ps : List (Nat × Nat)) : List Nat :=
  ps.foldl (fun live p => live.filter (· ≠ p.2)) live

/-- follow `next` (or `prev`) pointers from a starting slot. -/
def chase (dir : Node → Option Nat) (links : List Node) : Nat → Option Nat → List Nat
  | 0, _ => []
  | _ + 1, none => []
  | fuel + 1, some i =>
    match links[i]? with
    | none => []
    | some nd => i :: chase dir links fuel (dir nd)

end LList
end Moledyn

/-! ### a sweep or pair sweep interleaved with other calls -/
namespace Moledyn
namespace LList
variable {α : Type}

/-- the slot handed out by a call of the single sweep, if any. -/
def Out.slot? : Out α → Option Nat
  | .item (.ok (some (i, _))) => some i
  | _ => none

/-- the pair of slots handed out by a call of the pair sweep, if any. -/
def Out.pair? : Out α → Option (Nat × Nat)
  | .pair (.ok (some (i, _, j, _))) => some (i, j)
  | _ => none

/-- the single sweep reported its end (`None`). -/
def Out.isEnd : Out α → Bool
  | .item (.ok none) => true
  | _ => false

/-- the pair sweep reported its end (`None`). -/
def Out.isPairEnd : Out α → Bool
  | .pair (.ok none) => true
  | _ => false

/-- the slots handed out by single-sweep calls in a list of outputs. -/
def returnedSlots (outs : List (Out α)) : List Nat := outs.filterMap Out.slot?

/-- the pairs handed out by pair-sweep calls in a list of outputs. -/
def returnedPairs (outs : List (Out α)) : List (Nat × Nat) := outs.filterMap Out.pair?

/-- some call of the single sweep reported the end. -/
def sweepEnded (outs : List (Out α)) : Prop := ∃ o ∈ outs, o.isEnd = true

/-- some call of the pair sweep reported the end. -/
def pairSweepEnded (outs : List (Out α)) : Prop := ∃ o ∈ outs, o.isPairEnd = true

/-- calls that may be interleaved with a single sweep: the sweep itself, deletions and pushes. -/
def Op.sweepOp : Op α → Bool
  | .next => true
  | .nextMut _ => true
  | .del _ => true
  | .push _ => true
  | _ => false

/-- calls that may be interleaved with a pair sweep: the sweep itself and deletions. -/
def Op.pairOp : Op α → Bool
  | .nextPair => true
  | .del _ => true
  | _ => false

/-- an output that is not a panic. -/
def Out.fine : Out α → Prop
  | .done .panic => False
  | .item .panic => False
  | .pair .panic => False
  | _ => True

/-- total size of the agents in the given slots. -/
def totalSize (m : MergeOps α) (l : LList α) (live : List Nat) : Nat :=
  (live.map fun i => (l.contents[i]?.map m.size).getD 0).sum

/-- a sequence of merges `merge(i, j)`, collecting the results. -/
def mergeMany (m : MergeOps α) (l : LList α) : List (Nat × Nat) → LList α × List (Res Unit)
  | [] => (l, [])
  | p :: ps =>
    let r := l.merge m p.1 p.2
    let rest := mergeMany m r.1 ps
    (rest.1, r.2 :: rest.2)

/-- every merge is between two different slots that are live when it happens. -/
def ValidMerges : List Nat → List (Nat × Nat) → Prop
  | _, [] => True
  | live, p :: ps => p.1 ∈ live ∧ p.2 ∈ live ∧ p.1 ≠ p.2 ∧ ValidMerges (live.filter (· ≠ p.2)) ps

end LList
end Moledyn

/-! ### a pair sweep with deletions -/
namespace Moledyn
namespace LList
variable {α : Type}

/-- what the pair-sweep calls in a list of outputs returned, `none` for the end. -/
def pairReturns (outs : List (Out α)) : List (Option (Nat × Nat)) :=
  outs.filterMap fun
    | .pair (.ok none) => some none
    | .pair (.ok (some (i, _, j, _))) => some (some (i, j))
    | _ => none

/-- What pair-sweep calls mixed with deletions should return when `ps` are the pairs to come: each call the
next pair, each deletion strikes out the pairs with the deleted slot. -/
def pairSweepSpec : List (Op α) → List (Nat × Nat) → List (Option (Nat × Nat))
  | [], _ => []
  | .nextPair :: ops, [] => none :: pairSweepSpec ops []
  | .nextPair :: ops, p :: ps => some p :: pairSweepSpec ops ps
  | .del d :: ops, ps => pairSweepSpec ops (ps.filter fun q => q.1 ≠ d ∧ q.2 ≠ d)
  | _ :: ops, ps => pairSweepSpec ops ps

/-- No deletion in `rest` hits the first member of the pair that the next pair call would return, nor its
second member while that is the last live slot.  `past` is the history before `rest`. -/
def GentleDeletions (v : List α) (past rest : List (Op α)) : Prop :=
  ∀ k d, rest[k]? = some (.del d) → ∀ i j,
    ((from' v).run (past ++ rest.take k)).1.indiciesDouble.2 = .ok (some (i, j)) →
      d ≠ i ∧ (d = j → ∃ m ∈ (liveAfter v.length (past ++ rest.take k)).2, j < m)

end LList
end Moledyn
