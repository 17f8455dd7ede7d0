import Verif.Model.Stats
import Mathlib.Data.Finset.Basic

/-!
# Dynamic memory of `median` and the histograms

`median` (`matrix_median.hpp:31-58`) keeps the elements in a `std::vector`, `histogram` and `cumulative_histogram`
(`matrix_histogram.hpp:31-67`) return a `std::map`. These are the functions of `Verif.Model.Stats` again, with the
requests for memory explicit: any of them can fail, `new` then throws `std::bad_alloc`, and the destructors of the local
containers run.

Assumed of the library, as in libstdc++ and libc++: `std::sort` allocates nothing, a `std::map` allocates one node for
each entry and nothing else, and returning a local container moves it, which allocates nothing.
-/

namespace MatrixLibs

variable {T : Type} [Inhabited T] [CScalar T] {i j : Nat}

open CScalar (ofInt)

/-- The free store. A block is named by the number of requests made before it. -/
structure Heap where
  /-- blocks in use -/
  used : Finset Nat
  /-- sizes of the blocks requested so far, latest first -/
  log : List Nat
  /-- something that was not in use has been released: undefined behaviour -/
  bad : Bool

/-- Statements that read and write the state `σ`; it keeps its value when an exception is thrown. -/
abbrev Run (σ : Type) := ExceptT Stop (StateM σ)

/-- `std::bad_alloc`. -/
def badAlloc : Exc := .other 0

/-- `operator new`. `grant k` says whether the `k`th request (from 0) is satisfied. -/
def request (grant : Nat → Bool) (size : Nat) (h : Heap) : Res Nat × Heap :=
  if grant h.log.length then (.ok h.log.length, ⟨insert h.log.length h.used, size :: h.log, h.bad⟩)
  else (.error (.throws badAlloc), ⟨h.used, size :: h.log, h.bad⟩)

/-- `operator delete`. -/
def release (b : Nat) (h : Heap) : Heap :=
  if b ∈ h.used then ⟨h.used.erase b, h.log, h.bad⟩ else ⟨h.used, h.log, true⟩

/-- `cnt` iterations of a loop. -/
def loopRun {σ : Type} (body : Nat → Run σ Unit) : (cnt k : Nat) → Run σ Unit
  | 0, _ => pure ()
  | cnt + 1, k => do
    body k
    loopRun body cnt (k + 1)

/-- `for (std::size_t k = lo; k < hi; k++) body`. -/
def forRun {σ : Type} (lo hi : Nat) (body : Nat → Run σ Unit) : Run σ Unit := loopRun body (hi - lo) lo

/-- An expression that does not touch the state. -/
def liftRes {σ α : Type} (x : Res α) : Run σ α := fun s => (x, s)

/-- The local containers are destroyed when a function returns or an exception leaves it. -/
def unwind {α : Type} (r : Res α) (dtor : Heap → Heap) (h : Heap) : Res α × Heap :=
  match r with
  | .ok _ => (r, dtor h)
  | .error (.throws _) => (r, dtor h)
  | _ => (r, h)

/-! ## `std::vector` -/

/-- A vector: its block and capacity, if it has one, and its elements. -/
structure Vec (T : Type) where
  block : Option (Nat × Nat)
  items : List T

namespace Vec

def capacity (v : Vec T) : Nat := (v.block.map Prod.snd).getD 0

/-- `~vector()`. -/
def destroy (v : Vec T) (h : Heap) : Heap :=
  match v.block with
  | none => h
  | some (b, _) => release b h

/-- A larger block is requested, the elements are moved there, the old block is released. If the request fails, nothing
changes ([vector.capacity]). -/
def reallocate (grant : Nat → Bool) (cap : Nat) : Run (Heap × Vec T) Unit := fun (h, v) =>
  match request grant cap h with
  | (.ok b, h) => (.ok (), v.destroy h, ⟨some (b, cap), v.items⟩)
  | (.error e, h) => (.error e, h, v)

/-- `v.reserve(n)`. -/
def reserve (grant : Nat → Bool) (n : Nat) : Run (Heap × Vec T) Unit := fun (h, v) =>
  if v.capacity < n then reallocate grant n (h, v) else (.ok (), h, v)

/-- `v.push_back(x)`; `grow` is the new capacity when there is no room, which the library chooses. -/
def push_back (grow : Nat → Nat) (grant : Nat → Bool) (x : T) : Run (Heap × Vec T) Unit := do
  let v := (← get).2
  if v.items.length = v.capacity then reallocate grant (grow v.capacity)
  modify fun (h, v) => (h, ⟨v.block, v.items ++ [x]⟩)

end Vec

/-- The body of `median`, `matrix_median.hpp:33-57`. -/
def medianBody (grow : Nat → Nat) (grant : Nat → Bool) (sort : List T → List T) (A : Mat T i j) :
    Run (Heap × Vec T) T := do
  let size := i * j
  Vec.reserve grant size
  forRun 0 i fun it => forRun 0 j fun jt => do
    Vec.push_back grow grant (← liftRes (rd A it jt))
  let v ← liftRes (stdSort sort A (← get).2.items)
  modify fun (h, w) => (h, ⟨w.block, v⟩)
  if size % 2 = 0 then
    let x ← liftRes (vecRd v (size / 2))
    let y ← liftRes (vecRd v (szSub (size / 2) 1))
    liftRes do CScalar.div (← CScalar.add x y) (ofInt 2)
  else
    liftRes (vecRd v (size / 2))

/-- `median(A)`, `matrix_median.hpp:30-58`. -/
def medianMem (grow : Nat → Nat) (grant : Nat → Bool) (sort : List T → List T) (A : Mat T i j) (h : Heap) :
    Res T × Heap :=
  match medianBody grow grant sort A (h, ⟨none, []⟩) with
  | (r, h, v) => unwind r v.destroy h

/-! ## `std::map` -/

/-- A map: keys, mapped values and the blocks of the nodes, in key order. -/
abbrev NodeMap (T : Type) := List (T × Nat × Nat)

namespace NodeMap

/-- The entries without their blocks. -/
def entries (m : NodeMap T) : SizeMap T := m.map fun q => (q.1, q.2.1)

/-- The blocks. -/
def blocks (m : NodeMap T) : List Nat := m.map fun q => q.2.2

/-- `~map()`. -/
def destroy (m : NodeMap T) (h : Heap) : Heap := m.blocks.foldl (fun h b => release b h) h

/-- `m[k] = f(m[k])`, as `SizeMap.update`; a new entry needs a node. -/
def insertAt (grant : Nat → Bool) (k : T) (f : Nat → Nat) : NodeMap T → Heap → Res (NodeMap T) × Heap
  | [], h =>
    match request grant 1 h with
    | (.ok b, h) => (.ok [(k, f 0, b)], h)
    | (.error e, h) => (.error e, h)
  | (k', c, b') :: t, h =>
    if CScalar.lt k k' then
      match request grant 1 h with
      | (.ok b, h) => (.ok ((k, f 0, b) :: (k', c, b') :: t), h)
      | (.error e, h) => (.error e, h)
    else if CScalar.lt k' k then
      match insertAt grant k f t h with
      | (.ok t, h) => (.ok ((k', c, b') :: t), h)
      | (.error e, h) => (.error e, h)
    else (.ok ((k', f c, b') :: t), h)

/-- The statement `m[k] = f(m[k])`. -/
def update (grant : Nat → Bool) (k : T) (f : Nat → Nat) : Run (Heap × NodeMap T) Unit := fun (h, m) =>
  match insertAt grant k f m h with
  | (.ok m, h) => (.ok (), h, m)
  | (.error e, h) => (.error e, h, m)

end NodeMap

/-- The loops of `histogram`, `matrix_histogram.hpp:34-40`. -/
def histogramBody (grant : Nat → Bool) (A : Mat T i j) : Run (Heap × NodeMap T) Unit :=
  forRun 0 i fun it => forRun 0 j fun jt => do
    NodeMap.update grant (← liftRes (rd A it jt)) fun c => szAdd c 1

/-- `histogram(A)`, `matrix_histogram.hpp:31-43`. The map is handed to the caller, or destroyed on an exception. -/
def histogramMem (grant : Nat → Bool) (A : Mat T i j) (h : Heap) : Res (NodeMap T) × Heap :=
  if StrictWeak A then
    match histogramBody grant A (h, []) with
    | (.ok _, h, m) => (.ok m, h)
    | (.error e, h, m) => unwind (.error e) m.destroy h
  else (.error (.ub .badOrder), h)

/-- The loop of `cumulative_histogram`, `matrix_histogram.hpp:59-63`; the second component is `cumul_sum`. -/
def cumulativeBody (grant : Nat → Bool) : NodeMap T → Nat → Run (Heap × NodeMap T) Unit
  | [], _ => pure ()
  | p :: t, s => do
    let cumul_sum := szAdd s p.2.1
    NodeMap.update grant p.1 fun _ => cumul_sum
    cumulativeBody grant t cumul_sum

/-- `cumulative_histogram(A)`, `matrix_histogram.hpp:54-67`. -/
def cumulativeHistogramMem (grant : Nat → Bool) (A : Mat T i j) (h : Heap) : Res (NodeMap T) × Heap :=
  match histogramMem grant A h with
  | (.error e, h) => (.error e, h)
  | (.ok histA, h) =>
    match cumulativeBody grant histA 0 (h, []) with
    | (.ok _, h, result) => (.ok result, histA.destroy h)
    | (.error e, h, result) => unwind (.error e) (fun h => result.destroy (histA.destroy h)) h

end MatrixLibs
