/-!
# Model of `crates/formualizer-eval/src/engine/interval_tree.rs` and `sheet_index.rs`

A `BTreeMap<u32, _>` is a list of pairs with ascending keys (iteration order of the source).  A `HashSet` is a list
without repetition; its iteration order is not modelled (results are stated up to membership).  Coordinates are
natural numbers.  Test counters and `estimated_heap_bytes` are left out.
-/

namespace Verif.Interval

variable {T : Type} [DecidableEq T]

/-- interval_tree.rs 23-26 `IntervalNode`. -/
structure Node (T : Type) where
  high : Nat
  values : List T

/-- interval_tree.rs 30-35 `IntervalTree`. -/
structure Tree (T : Type) where
  map : List (Nat × List (Node T)) := []
  size : Nat := 0

/-- `HashSet::insert`, `HashSet::remove`, `HashSet::extend`. -/
def setInsert (v : T) (l : List T) : List T := if v ∈ l then l else l ++ [v]
def setRemove (v : T) (l : List T) : List T := l.filter (· ≠ v)
def setExtend (l vs : List T) : List T := vs.foldl (fun l v => setInsert v l) l

/-- `BTreeMap::entry(k).or_default()` followed by an update. -/
def upsert (k : Nat) (f : List (Node T) → List (Node T)) : List (Nat × List (Node T)) → List (Nat × List (Node T))
  | [] => [(k, f [])]
  | (k', ns) :: rest =>
    if k < k' then (k, f []) :: (k', ns) :: rest
    else if k = k' then (k, f ns) :: rest
    else (k', ns) :: upsert k f rest

/-- `BTreeMap::get`. -/
def getKey (m : List (Nat × List (Node T))) (k : Nat) : Option (List (Node T)) :=
  (m.find? fun p => p.1 == k).map Prod.snd

/-- `nodes.iter().find(|n| n.high == high)`. -/
def findHigh (ns : List (Node T)) (high : Nat) : Option (Node T) := ns.find? fun n => n.high == high

/-- Update the first node with the given upper end. -/
def updHigh (high : Nat) (f : List T → List T) : List (Node T) → List (Node T)
  | [] => []
  | n :: ns => if n.high = high then { n with values := f n.values } :: ns else n :: updHigh high f ns

/-- interval_tree.rs 61-68 `get_mut`: the values of an exact interval. -/
def get (t : Tree T) (low high : Nat) : Option (List T) :=
  (getKey t.map low).bind fun ns => (findHigh ns high).map Node.values

/-- interval_tree.rs 71-82 `insert`. -/
def insert (t : Tree T) (low high : Nat) (v : T) : Tree T :=
  let ns := (getKey t.map low).getD []
  if (findHigh ns high).isSome then
    { t with map := upsert low (updHigh high (setInsert v)) t.map }
  else
    { map := upsert low (fun ns => ns ++ [⟨high, [v]⟩]) t.map, size := t.size + 1 }

/-- interval_tree.rs 84-94 `query`. -/
def query (t : Tree T) (qLow qHigh : Nat) : List (Nat × Nat × List T) :=
  (t.map.filter fun p => decide (p.1 ≤ qHigh)).flatMap fun p =>
    (p.2.filter fun n => decide (n.high ≥ qLow)).map fun n => (p.1, n.high, n.values)

/-- interval_tree.rs 100-107 `point_values`. -/
def pointValues (t : Tree T) (p : Nat) : Option (List T) :=
  (getKey t.map p).bind fun ns => (findHigh ns p).map Node.values

/-- interval_tree.rs 115-137 `visit_point_intervals` with a visitor that never stops: the values presented. -/
def visitPoints (t : Tree T) (qLow qHigh : Nat) : List T :=
  if qLow > qHigh then []
  else (t.map.filter fun p => decide (qLow ≤ p.1) && decide (p.1 ≤ qHigh)).flatMap fun p =>
    (p.2.filter fun n => n.high == p.1).flatMap Node.values

/-- interval_tree.rs 141-156 `point_interval_stats`: the number of values. -/
def pointCount (t : Tree T) (qLow qHigh : Nat) : Nat :=
  if qLow > qHigh then 0
  else ((t.map.filter fun p => decide (qLow ≤ p.1) && decide (p.1 ≤ qHigh)).map fun p =>
    ((p.2.filter fun n => n.high == p.1).map fun n => n.values.length).sum).sum

/-- interval_tree.rs 160-178 `visit_query` with a visitor that never stops: the values presented. -/
def visitQuery (t : Tree T) (qLow qHigh : Nat) : List T :=
  (t.map.filter fun p => decide (p.1 ≤ qHigh)).flatMap fun p =>
    p.2.flatMap fun n => if n.high < qLow then [] else n.values

/-- `BTreeMap::get_mut` followed by an update, and `BTreeMap::remove` when the list became empty. -/
def updKey (k : Nat) (f : List (Node T) → List (Node T)) : List (Nat × List (Node T)) → List (Nat × List (Node T))
  | [] => []
  | (k', ns) :: rest =>
    if k = k' then (if f ns = [] then rest else (k', f ns) :: rest) else (k', ns) :: updKey k f rest

/-- interval_tree.rs 204-221 `remove`. -/
def remove (t : Tree T) (low high : Nat) (v : T) : Tree T × Bool :=
  match get t low high with
  | none => (t, false)
  | some vs =>
    if v ∈ vs then
      if setRemove v vs = [] then
        ({ map := updKey low (fun ns => ns.filter fun n => n.high ≠ high) t.map, size := t.size - 1 }, true)
      else ({ t with map := updKey low (updHigh high (setRemove v)) t.map }, true)
    else (t, false)

/-- interval_tree.rs 223-229 `entry` and 283-299 `or_insert_with(HashSet::new)` followed by `.insert(v)`, as used by
sheet_index.rs and spill.rs. -/
def entryInsert (t : Tree T) (low high : Nat) (v : T) : Tree T :=
  let t := if (get t low high).isNone then
      ({ map := upsert low (fun ns => ns ++ [⟨high, []⟩]) t.map, size := t.size + 1 } : Tree T)
    else t
  { t with map := upsert low (updHigh high (setInsert v)) t.map }

/-- interval_tree.rs 249-263: one item of the bulk build. -/
def bulkItem (t : Tree T) (item : Nat × List T) : Tree T :=
  let ns := (getKey t.map item.1).getD []
  if (findHigh ns item.1).isSome then
    { t with map := upsert item.1 (updHigh item.1 (fun l => setExtend l item.2)) t.map }
  else
    { map := upsert item.1 (fun ns => ns ++ [⟨item.1, item.2⟩]) t.map, size := t.size + 1 }

/-- Stable sort by coordinate. -/
def insertItem (x : Nat × List T) : List (Nat × List T) → List (Nat × List T)
  | [] => [x]
  | y :: ys => if x.1 ≤ y.1 then x :: y :: ys else y :: insertItem x ys

def sortItems : List (Nat × List T) → List (Nat × List T)
  | [] => []
  | x :: xs => insertItem x (sortItems xs)

/-- interval_tree.rs 232-264 `bulk_build_points`. -/
def bulkBuild (t : Tree T) (items : List (Nat × List T)) : Tree T :=
  if t.size ≠ 0 then
    items.foldl (fun t it => it.2.foldl (fun t v => insert t it.1 it.1 v) t) t
  else if items = [] then t
  else (sortItems items).foldl bulkItem t

/-- What a client may do. -/
inductive Op (T : Type)
  | insert (low high : Nat) (v : T)
  | entryInsert (low high : Nat) (v : T)
  | remove (low high : Nat) (v : T)
  | bulk (items : List (Nat × List T))

def step (t : Tree T) : Op T → Tree T
  | .insert l h v => insert t l h v
  | .entryInsert l h v => entryInsert t l h v
  | .remove l h v => (remove t l h v).1
  | .bulk items => bulkBuild t items

def run (ops : List (Op T)) : Tree T := ops.foldl step {}

end Verif.Interval
