import Verif.Model.LinkedList
/-
Specification of the linked list, independent of links and cursors: a row of slots, the list of
slots that are live, and two queues of slots still to be visited.
-/
namespace Moledyn

/-- Abstract state: contents of every slot ever pushed, the live slots in order, the slots still to
be visited by the single sweep (also first members of pairs), and those still to be paired with the
head of `q0`. -/
structure Slots (α : Type) where
  contents : List α
  live : List Nat
  q0 : List Nat
  q1 : List Nat

namespace Slots
variable {α : Type}

/-- No slots. -/
def empty : Slots α := ⟨[], [], [], []⟩

/-- Slots `0..n-1`, all live, no sweep in progress. -/
def ofContents (v : List α) : Slots α := ⟨v, List.range v.length, [], []⟩

/-- A running queue gets the new slot at its end; a finished queue stays finished. -/
def extend (q : List Nat) (n : Nat) : List Nat := if q = [] then [] else q ++ [n]

/-- What each call means. -/
def step (s : Slots α) : LList.Op α → Slots α × LList.Out α
  | .push a =>
    let n := s.contents.length
    ({ contents := s.contents ++ [a], live := s.live ++ [n],
       q0 := extend s.q0 n, q1 := extend s.q1 n }, .done (.ok ()))
  | .del i =>
    if i ∈ s.live then
      ({ s with live := s.live.filter (· ≠ i), q0 := s.q0.filter (· ≠ i),
                q1 := s.q1.filter (· ≠ i) }, .done (.ok ()))
    else (s, .done (.err .invalidArgumentInput))
  | .connectAll =>
    let all := List.range s.contents.length
    let resume := fun (q : List Nat) =>
      match q with
      | [] => []
      | i :: _ => all.filter (i ≤ ·)
    ({ s with live := all, q0 := resume s.q0, q1 := resume s.q1 }, .done (.ok ()))
  | .intoIter => ({ s with q0 := s.live }, .done (.ok ()))
  | .intoDoubleIter => ({ s with q0 := s.live, q1 := s.live.tail }, .done (.ok ()))
  | .next =>
    match s.q0 with
    | [] => (s, .item (.ok none))
    | i :: q =>
      ({ s with q0 := q }, .item (.ok (s.contents[i]?.map (i, ·))))
  | .nextMut f =>
    match s.q0 with
    | [] => (s, .item (.ok none))
    | i :: q =>
      ({ s with q0 := q, contents := s.contents.modify i f },
        .item (.ok (s.contents[i]?.map (i, ·))))
  | .nextPair =>
    match s.q0, s.q1 with
    | [], _ => (s, .pair (.ok none))
    | _, [] => (s, .pair (.ok none))
    | i :: t, j :: u =>
      ((if u = [] then { s with q0 := t, q1 := t.tail } else { s with q1 := u }),
        .pair (.ok (s.contents[i]?.bind fun a => s.contents[j]?.map fun b => (i, a, j, b))))

/-- A whole history. -/
def run (s : Slots α) : List (LList.Op α) → Slots α × List (LList.Out α)
  | [] => (s, [])
  | op :: ops =>
    let r := s.step op
    let rest := run r.1 ops
    (rest.1, r.2 :: rest.2)

end Slots
end Moledyn
