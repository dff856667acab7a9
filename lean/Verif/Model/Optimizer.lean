import Verif.Model.F64

/-!
# The tree optimizer (flic/tree/TreeOptimizer.py, flic/tree/OptimizerResult.py)

Python's int/int true division is modelled by correct rounding (`fl`), so `math.ceil(a / b)` is the float computation and
not the integer ceiling.  `math.log(x, base)` depends on the C library and is a parameter.
-/

namespace Ccnpy

/-- `math.ceil` of a non-negative float. -/
def F64.ceil (x : F64) : Nat := (x.num + x.den - 1) / x.den

/-- `math.ceil(a / b)` for Python ints, `b > 0`: the sign is handled apart, rounding is symmetric. -/
def ceilDiv (a : Int) (b : Nat) : Int :=
  if 0 ≤ a then ((fl a.toNat b).ceil : Int) else -((fl (-a).toNat b).toInt : Int)

/-- The two uses of the C library's logarithm in flic/tree/OptimizerResult.py:
`ceilLog x b` is `int(math.ceil(math.log(x, b)))` (line 74) and `ceilLogMinus1 x b` is
`int(math.ceil(math.log(x, b) - 1))` (line 79), for `x ≥ 1` and `b ≥ 2`. -/
structure FloatLog where
  ceilLog : Nat → Nat → Int
  ceilLogMinus1 : Nat → Nat → Int

/-- `f (x, b)` guarded by the exceptions of `math.log(x, b) = log(x) / log(b)`. -/
def mathLog (f : Nat → Nat → Int) (x : Int) (b : Nat) : Py Int :=
  if x ≤ 0 then .error .valueError
  else if b = 0 then .error .valueError
  else if b = 1 then .error .zeroDivisionError
  else .ok (f x.toNat b)

/-- flic/tree/OptimizerResult.py:27-45 -/
structure OptimizerResult where
  numDataObjects : Nat
  numPointers : Nat
  direct : Nat
  indirect : Nat
  internalNodes : Int
  waste : Int
  leafNodes : Int
  height : Int
  deriving DecidableEq, Repr

/-- flic/tree/OptimizerResult.py:81-89 `_calculate_num_leaf_nodes` -/
def numLeafNodes (n p d : Nat) (k : Int) : Int :=
  let remaining := (n : Int) - k * d
  if remaining ≤ 0 then 0 else ceilDiv remaining p

/-- flic/tree/OptimizerResult.py:59-79 `_calculate_tree_height`; `total` is `total_nodes()` (126-128). -/
def calcTreeHeight (L : FloatLog) (n d m : Nat) (total : Int) : Py Int :=
  if m = 1 then .ok total
  else if m = 0 then mathLog L.ceilLog n d
  else mathLog L.ceilLogMinus1 (((m : Int) - 1) * total + 1) m

/-- flic/tree/OptimizerResult.py:27-45, 91-97: constructor with `_sanity_check`.  `p = 0` cannot occur: the optimizer
loops over `range(0, p)`. -/
def OptimizerResult.create (L : FloatLog) (n p d m : Nat) (k w : Int) : Py OptimizerResult := do
  let leaf := numLeafNodes n p d k
  let height ← calcTreeHeight L n d m (k + leaf)
  if d + m ≠ p then .error .valueError
  else if leaf * p + k * d < n then .error .valueError
  else return ⟨n, p, d, m, k, w, leaf, height⟩

/-- flic/tree/OptimizerResult.py:126-128 -/
def OptimizerResult.totalNodes (r : OptimizerResult) : Int := r.internalNodes + r.leafNodes

/-- flic/tree/TreeOptimizer.py:75-90 `calculate_k`; `none` is `math.inf`. -/
def calculateK (n d m : Nat) : Py (Option Int) :=
  if m = 0 then (if n > d then .ok none else .ok (some 1))
  else if m * (d + m - 1) = 0 then .error .zeroDivisionError
  else .ok (some (ceilDiv ((n : Int) - d - m) (m * (d + m - 1))))

/-- flic/tree/TreeOptimizer.py:92-103 `calculate_n` -/
def calculateN (k : Int) (d m : Nat) : Int := k * ((d : Int) * m + m * m - m) + d + m

/-- flic/tree/TreeOptimizer.py:188-191 `calculate_waste` -/
def calculateWaste (n : Nat) (k : Int) (d m : Nat) : Int := calculateN k d m - n

/-- The locals `best_k` (`none` is `math.inf`) and `best_solutions` of `minimize_k`. -/
structure BestState where
  best : Option Int := none
  solutions : List OptimizerResult := []

/-- flic/tree/TreeOptimizer.py:116-126: loop body of `minimize_k`. -/
def minimizeKStep (L : FloatLog) (n p : Nat) (s : BestState) (m : Nat) : Py BestState := do
  let d := p - m
  match ← calculateK n d m with
  | none => return s
  | some k =>
    let solution ← OptimizerResult.create L n p d m k (calculateWaste n k d m)
    match s.best with
    | none => return ⟨some k, [solution]⟩
    | some b =>
      if k < b then return ⟨some k, [solution]⟩
      else if k = b then return ⟨some b, s.solutions ++ [solution]⟩
      else return s

/-- flic/tree/TreeOptimizer.py:105-129 `minimize_k` -/
def minimizeK (L : FloatLog) (n p : Nat) : Py (List OptimizerResult) := do
  return (← (List.range p).foldlM (minimizeKStep L n p) {}).solutions

/-- flic/tree/TreeOptimizer.py:135-138: loop body; the pair is (`best_solution`, `min_waste`), `none` before the first
solution. -/
def minWasteStep (best : Option OptimizerResult) (s : OptimizerResult) : Option OptimizerResult :=
  match best with
  | none => some s
  | some b => if s.waste < b.waste then some s else some b

/-- flic/tree/TreeOptimizer.py:131-140 `minimize_k_min_waste` -/
def minimizeKMinWaste (L : FloatLog) (n p : Nat) : Py OptimizerResult := do
  match (← minimizeK L n p).foldl minWasteStep none with
  | none => .error .assertionError
  | some s => return s

/-- flic/tree/TreeOptimizer.py:168-180: loop body of `minimize_waste`.  With `k = inf` (only for `m = 0`) the waste is
`inf * 0 + ... = nan`, every comparison is False and nothing happens. -/
def minimizeWasteStep (L : FloatLog) (n p : Nat) (s : BestState) (m : Nat) : Py BestState := do
  let d := p - m
  match ← calculateK n d m with
  | none => return s
  | some k =>
    let w := calculateWaste n k d m
    match s.best with
    | none => return ⟨some w, [← OptimizerResult.create L n p d m k w]⟩
    | some b =>
      if w < b then return ⟨some w, [← OptimizerResult.create L n p d m k w]⟩
      else if w = b then return ⟨some b, s.solutions ++ [← OptimizerResult.create L n p d m k w]⟩
      else return s

/-- flic/tree/TreeOptimizer.py:157-186 `minimize_waste` -/
def minimizeWaste (L : FloatLog) (n p : Nat) : Py (List OptimizerResult) := do
  return (← (List.range p).foldlM (minimizeWasteStep L n p) {}).solutions

/-- flic/tree/TreeOptimizer.py:150-153: loop body of `minimize_waste_min_height`, starting at `0xFFFFFFFF`. -/
def minHeightStep (best : Option OptimizerResult) (s : OptimizerResult) : Option OptimizerResult :=
  match best with
  | none => if s.height < 0xFFFFFFFF then some s else none
  | some b => if s.height < b.height then some s else some b

/-- flic/tree/TreeOptimizer.py:142-155 `minimize_waste_min_height` -/
def minimizeWasteMinHeight (L : FloatLog) (n p : Nat) : Py OptimizerResult := do
  match (← minimizeWaste L n p).foldl minHeightStep none with
  | none => .error .assertionError
  | some s => return s

end Ccnpy
