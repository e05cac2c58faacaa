import Mathlib.Order.Defs.LinearOrder

/-!
# heapq

Python's `heapq` as used by `gama/utilities/evaluation_library.py`: the pure Python
implementation of CPython (`Lib/heapq.py`), on lists of items compared through a key.
It is part of the standard library, not of `/repo`; it is spelled out here so that nothing
about it has to be assumed.
-/

namespace Gama

section
variable {α K : Type} [LinearOrder K] (key : α → K)

/-- `_siftdown(heap, 0, pos)` of an item `x`: parents greater than `x` move down.  The
argument is the number of iterations left, `pos` is enough. -/
def siftDown : Nat → List α → Nat → α → List α
  | 0, h, pos, x => h.set pos x
  | fuel + 1, h, pos, x =>
    if 0 < pos then
      match h[(pos - 1) / 2]? with
      | none => h.set pos x
      | some p =>
        if key x < key p then siftDown fuel (h.set pos p) ((pos - 1) / 2) x else h.set pos x
    else h.set pos x

/-- The while loop of `_siftup`: the smaller child moves up until the hole is a leaf. -/
def siftHole : Nat → List α → Nat → List α × Nat
  | 0, h, pos => (h, pos)
  | fuel + 1, h, pos =>
    match h[2 * pos + 1]?, h[2 * pos + 2]? with
    | none, _ => (h, pos)
    | some l, none => siftHole fuel (h.set pos l) (2 * pos + 1)
    | some l, some r =>
      if key l < key r then siftHole fuel (h.set pos l) (2 * pos + 1)
      else siftHole fuel (h.set pos r) (2 * pos + 2)

/-- `_siftup(heap, 0)` after `heap[0] = x`. -/
def siftUp (h : List α) (x : α) : List α :=
  let hp := siftHole key h.length h 0
  siftDown key hp.2 hp.1 hp.2 x

/-- `heapq.heappush` -/
def heappush (h : List α) (x : α) : List α := siftDown key h.length (h ++ [x]) h.length x

/-- `heapq.heappushpop` -/
def heappushpop (h : List α) (x : α) : α × List α :=
  match h with
  | [] => (x, h)
  | r :: _ => if key r < key x then (r, siftUp key h x) else (x, h)

end
end Gama
