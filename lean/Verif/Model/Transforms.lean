import Verif.Model.Pipeline
import Verif.Model.Confusion
import Verif.Model.Woe
import Mathlib.Algebra.Order.Field.Basic
import Mathlib.Data.List.Sort

/-!
# The transforms of a blueprint (`python/polars_ds/modeling/transforms.py`)

Every function learns values from a frame and returns expressions.  A cell is a number, NaN or an infinity (`Val`),
or a string; null is `none`.  Integer and float columns are one type (`num`), categorical columns count as `str`.
Numbers are elements of an ordered field (no rounding).  `none` as the result of a transform is an exception.
The aggregations, `fill_null`, `clip`, `eq_missing`, `replace_strict` and `sum_horizontal` are polars'; they are
written out here from the polars documentation (trusted base).
-/

namespace Verif.Transforms
open Verif.Pipeline
open Verif.Confusion (Val)

/-- The content of a cell. -/
inductive Cell (K : Type) where
  | num (v : Val K)
  | str (s : String)
deriving DecidableEq

/-- Column types. -/
inductive Ty where
  | num
  | str
  | other
deriving DecidableEq, Repr

instance : Inhabited Ty := ⟨.other⟩

variable {K : Type} [Field K] [LinearOrder K]

/-- The number in a cell. -/
def Cell.val? : Cell K → Option (Val K)
  | .num v => some v
  | .str _ => none

/-- The string in a cell. -/
def Cell.str? : Cell K → Option String
  | .num _ => none
  | .str s => some s

/-! ## Float arithmetic -/

/-- IEEE addition. -/
def vadd : Val K → Val K → Val K
  | .num a, .num b => .num (a + b)
  | .inf p, .inf q => if p = q then .inf p else .nan
  | .inf p, .num _ => .inf p
  | .num _, .inf q => .inf q
  | .nan, _ => .nan
  | _, .nan => .nan

/-- Negation. -/
def vneg : Val K → Val K
  | .num a => .num (-a)
  | .inf p => .inf (!p)
  | .nan => .nan

/-- IEEE subtraction. -/
def vsub (a b : Val K) : Val K := vadd a (vneg b)

/-- IEEE multiplication. -/
def vmul : Val K → Val K → Val K
  | .num a, .num b => .num (a * b)
  | .inf p, .num b => if b = 0 then .nan else .inf (p == decide (0 < b))
  | .num a, .inf q => if a = 0 then .nan else .inf (q == decide (0 < a))
  | .inf p, .inf q => .inf (p == q)
  | .nan, _ => .nan
  | _, .nan => .nan

/-- The order of floats in polars: NaN is the largest. -/
def vle : Val K → Val K → Bool
  | _, .nan => true
  | .nan, _ => false
  | .inf false, _ => true
  | _, .inf true => true
  | .num a, .num b => decide (a ≤ b)
  | .inf true, .num _ => false
  | .inf true, .inf false => false
  | .num _, .inf false => false

/-- Absolute value. -/
def vabs : Val K → Val K
  | .num a => .num |a|
  | .inf _ => .inf true
  | .nan => .nan

/-- A binary expression: null if one side is null. -/
def op2 (g : Val K → Val K → Val K) : Option (Val K) → Option (Val K) → Option (Val K)
  | some a, some b => some (g a b)
  | _, _ => none

/-! ## Aggregations -/

/-- `mean()`: null without values. -/
def meanOf (vs : List (Val K)) : Option (Val K) :=
  if vs.isEmpty then none else some (Val.fdiv (vs.foldl vadd (.num 0)) (.num (vs.length : K)))

/-- `median()`: of the sorted values the middle one, or the mean of the two middle ones. -/
def medianOf (vs : List (Val K)) : Option (Val K) :=
  let s := vs.insertionSort fun a b => vle a b = true
  if s.isEmpty then none
  else if s.length % 2 = 1 then s[s.length / 2]?
  else op2 (fun a b => Val.fdiv (vadd a b) (.num 2)) s[s.length / 2 - 1]? s[s.length / 2]?

/-- `std(ddof=0)`; `sqrt` is a parameter. -/
def stdOf (sqrt : K → K) (vs : List (Val K)) : Option (Val K) :=
  (meanOf vs).bind fun m => (meanOf (vs.map fun v => vmul (vsub v m) (vsub v m))).map (Val.fsqrt sqrt)

/-- `min()`: NaN is ignored unless there is nothing else. -/
def minOf (vs : List (Val K)) : Option (Val K) :=
  match vs.filter (fun v => decide (v ≠ .nan)) with
  | [] => vs.head?
  | v :: t => some (t.foldl (fun a b => if vle a b then a else b) v)

/-- `max()`: NaN is ignored unless there is nothing else. -/
def maxOf (vs : List (Val K)) : Option (Val K) :=
  match vs.filter (fun v => decide (v ≠ .nan)) with
  | [] => vs.head?
  | v :: t => some (t.foldl (fun a b => if vle a b then b else a) v)

/-! ## Numeric transforms -/

/-- The values of a column that are not null. -/
def valsOf (f : Frame (Cell K) Ty) (c : String) : List (Val K) :=
  (f.col c).filterMap fun o => o.bind Cell.val?

/-- A numeric expression that writes the column it reads. -/
def onCol (c : String) (g : Option (Val K) → Option (Val K)) : Ex (Cell K) Ty :=
  Ex.row c [c] (fun _ => .num) fun r => (g ((r c).bind Cell.val?)).map .num

/-- Learn from each column and return one expression for each.  A missing column and a column that is not numeric
are errors. -/
def perCol {P : Type} (learn : List (Val K) → Option P) (g : P → Option (Val K) → Option (Val K))
    (f : Frame (Cell K) Ty) (cs : List String) : Option (List (Ex (Cell K) Ty)) :=
  cs.mapM fun c => if f.schema.lookup c = some .num then (learn (valsOf f c)).map fun p => onCol c (g p) else none

/-- `SimpleImputeMethod`. -/
inductive Impute where
  | mean
  | median
  | mode
deriving DecidableEq, Repr

/-- The value learned by each method.  `mode().list.first()` calls a list function on a column that is not a list
and fails. -/
def Impute.learn : Impute → List (Val K) → Option (Val K)
  | .mean, vs => meanOf vs
  | .median, vs => medianOf vs
  | .mode, _ => none

/-- `fill_null(m)`. -/
def fillNull (m : Val K) (o : Option (Val K)) : Option (Val K) := some (o.getD m)

/-- `impute` (`transforms.py:26-50`).  `fill_null(None)` for a column without values is an error. -/
def impute (m : Impute) : Frame (Cell K) Ty → List String → Option (List (Ex (Cell K) Ty)) :=
  perCol m.learn fillNull

/-- `conditional_impute` (`transforms.py:53-112`) with one rule: the values where the rule is false are used for
learning, those where it is true are replaced; a rule that is null does neither. -/
def conditionalImpute (m : Impute) (c : String) (needs : List String) (rule : (String → Option (Cell K)) → Option Bool)
    (f : Frame (Cell K) Ty) : Option (List (Ex (Cell K) Ty)) :=
  if f.schema.lookup c = some .num ∧ m ≠ .mode then
    let v := m.learn ((f.rows.filter fun r => rule r = some false).filterMap fun r => (r c).bind Cell.val?)
    some [Ex.row c (c :: needs) (fun _ => .num) fun r => if rule r = some true then v.map .num else r c]
  else none

/-- `center` (`transforms.py:158-170`). -/
def center : Frame (Cell K) Ty → List String → Option (List (Ex (Cell K) Ty)) :=
  perCol (fun vs => some (meanOf vs)) fun m x => op2 vsub x m

/-- `scale(method="standard")` (`transforms.py:190-201`). -/
def scaleStandard (sqrt : K → K) : Frame (Cell K) Ty → List String → Option (List (Ex (Cell K) Ty)) :=
  perCol (fun vs => some (meanOf vs, stdOf sqrt vs)) fun p x => op2 Val.fdiv (op2 vsub x p.1) p.2

/-- `(c - a) / (b - a)`; `b - a` is computed in Python, where a missing value is an error. -/
def between (p : Val K × Val K) (x : Option (Val K)) : Option (Val K) :=
  op2 Val.fdiv (op2 vsub x (some p.1)) (some (vsub p.2 p.1))

/-- `scale(method="min_max")` (`transforms.py:202-214`). -/
def scaleMinMax : Frame (Cell K) Ty → List String → Option (List (Ex (Cell K) Ty)) :=
  perCol (fun vs => (minOf vs).bind fun a => (maxOf vs).map fun b => (a, b)) between

/-- `scale(method="abs_max")` (`transforms.py:215-222`). -/
def scaleAbsMax : Frame (Cell K) Ty → List String → Option (List (Ex (Cell K) Ty)) :=
  perCol (fun vs => some (maxOf (([minOf vs, maxOf vs].filterMap id).map vabs))) fun m x => op2 Val.fdiv x m

/-- The condition on the quantiles (`transforms.py:250`, `:291`). -/
def badQuantiles (ql qh : K) : Bool :=
  decide (ql > 1) || decide (ql < 0) || decide (qh > 1) || decide (qh < 0) || decide (ql ≥ qh)

/-- `robust_scale` (`transforms.py:227-265`); `quant` is polars' `quantile` for the chosen interpolation. -/
def robustScale (quant : K → List (Val K) → Option (Val K)) (ql qh : K) (f : Frame (Cell K) Ty) (cs : List String) :
    Option (List (Ex (Cell K) Ty)) :=
  if badQuantiles ql qh then none
  else perCol (fun vs => (quant ql vs).bind fun a => (quant qh vs).map fun b => (a, b)) between f cs

/-- `clip(a, b)`: null and NaN stay; a missing bound does not clip. -/
def clip (a b : Option (Val K)) (x : Option (Val K)) : Option (Val K) :=
  x.map fun v => if v = .nan then v else
    let w := match a with
      | some a => if vle a v then v else a
      | none => v
    match b with
    | some b => if vle w b then w else b
    | none => w

/-- `winsorize` (`transforms.py:268-306`). -/
def winsorize (quant : K → List (Val K) → Option (Val K)) (ql qh : K) (f : Frame (Cell K) Ty) (cs : List String) :
    Option (List (Ex (Cell K) Ty)) :=
  if badQuantiles ql qh then none
  else perCol (fun vs => some (quant ql vs, quant qh vs)) (fun p => clip p.1 p.2) f cs

/-- `linear_impute` (`transforms.py:115-155`): `fit` is `lin_reg` with `null_policy="skip"` on the features and the
target (C12, C20); its last coefficient is the bias.  `sum_horizontal` leaves out null terms. -/
def linearImpute (fit : Frame (Cell K) Ty → List String → String → Bool → Option (List (Val K))) (target : String)
    (addBias : Bool) (f : Frame (Cell K) Ty) (features : List String) : Option (List (Ex (Cell K) Ty)) :=
  (fit f features target addBias).map fun coeffs =>
    [Ex.row target (target :: features) (fun _ => .num) fun r =>
      let terms := (features.zip coeffs).map fun fc => op2 vmul ((r fc.1).bind Cell.val?) (some fc.2)
      let terms := if addBias then terms ++ [coeffs.getLast?] else terms
      (fillNull ((terms.filterMap id).foldl vadd (.num 0)) ((r target).bind Cell.val?)).map .num]

/-! ## Encoders -/

/-- The distinct strings of a column in order (`unique().drop_nulls().cast(String).implode().list.sort()`,
`transforms.py:335-339`). -/
def levels (f : Frame (Cell K) Ty) (c : String) : List String :=
  (((f.col c).filterMap fun o => o.bind Cell.str?).dedup).insertionSort (· ≤ ·)

/-- The number 0 or 1. -/
def bit (b : Bool) : Cell K := .num (.num (if b then 1 else 0))

/-- The indicator column of one value (`transforms.py:348`). -/
def indicator (c sep u : String) : Ex (Cell K) Ty :=
  Ex.row (c ++ sep ++ u) [c] (fun _ => .num) fun r => some (bit (decide ((r c).bind Cell.str? = some u)))

/-- The indicators of one column (`transforms.py:343-350`): none with fewer than two distinct values. -/
def oneHotCol (sep : String) (dropFirst : Bool) (f : Frame (Cell K) Ty) (c : String) : List (Ex (Cell K) Ty) :=
  let u := levels f c
  if u.length > 1 then (u.drop (if dropFirst then 1 else 0)).map fun v => indicator c sep v else []

/-- `one_hot_encode` (`transforms.py:309-357`): columns that are not strings produce nothing. -/
def oneHot (sep : String) (dropFirst : Bool) (f : Frame (Cell K) Ty) (cs : List String) : Option (List (Ex (Cell K) Ty)) :=
  if cs.all fun c => decide (c ∈ f.names) then
    let es := (cs.filter fun c => f.schema.lookup c = some .str).flatMap fun c => oneHotCol sep dropFirst f c
    if es.isEmpty then none else some es
  else none

/-- `rank_hot_encode` (`transforms.py:360-391`).  `replace_strict` rejects repeated values of `old` (when the step is
run; here at once). -/
def rankHot (c : String) (ranking : List String) : Option (List (Ex (Cell K) Ty)) :=
  if ranking.length ≤ 1 then none
  else if ranking.Nodup then
    some ((List.range' 1 (ranking.length - 1)).zip ranking.tail |>.map fun iv =>
      Ex.row (c ++ ">=" ++ iv.2) [c] (fun _ => .num) fun r =>
        some (.num (.num (match (r c).bind Cell.str? with
          | none => -1
          | some s => if s ∈ ranking then (if iv.1 ≤ ranking.idxOf s then 1 else 0) else -1))))
  else none

/-- The `default` argument of the encoders. -/
inductive Default (K : Type) where
  | null
  | value (v : K)
  | text (s : String)

/-- `_encoder_default_value` (`transforms.py:394-423`) for a target column. -/
def defaultValue (f : Frame (Cell K) Ty) (target : String) : Default K → Option (Option (Val K))
  | .null => some none
  | .value v => some (some (.num v))
  | .text s =>
    if s = "null" then some none
    else if s = "zero" then some (some (.num 0))
    else if s = "mean" then some (meanOf (valsOf f target))
    else none

/-- `replace_strict(old, new, default)` (`transforms.py:478-480`, `:531-533`, `:584-586`). -/
def replaceStrict (table : List (String × Val K)) (d : Option (Val K)) (s : Option String) : Option (Val K) :=
  match s with
  | none => d
  | some s => match table.lookup s with
    | some v => some v
    | none => d

/-- `target_encode`, `woe_encode` and `iv_encode` (`transforms.py:426-482`, `:485-535`, `:538-588`), with `table` the
mapping computed by `target_encode`, `woe_discrete` or `info_value_discrete` for a column (C45, C46, C62). -/
def encode (table : Frame (Cell K) Ty → String → List (String × Val K)) (target : String) (d : Default K)
    (f : Frame (Cell K) Ty) (cs : List String) : Option (List (Ex (Cell K) Ty)) :=
  if cs.all fun c => decide (c ∈ f.names) then
    let valid := cs.filter fun c => f.schema.lookup c = some .str
    if valid.isEmpty then none
    else (defaultValue f target d).map fun dv => valid.map fun c =>
      Ex.row c [c] (fun _ => .num) fun r => (replaceStrict (table f c) dv ((r c).bind Cell.str?)).map .num
  else none

/-- The column pair handed to `target_encode`, `woe_discrete` and `info_value_discrete`: the categories and the target
(finite numbers or null; other floats are not modelled). -/
def pairs {L : Type} (f : Frame (Cell L) Ty) (c target : String) : List (Option String × Option L) :=
  f.rows.map fun r => ((r c).bind Cell.str?, (r target).bind fun x => match x with
    | .num (.num v) => some v
    | _ => none)

/-- The mapping learned by `target_encode` (`transforms.py:470-475`, `python/polars_ds/exprs/num.py:965-1000`,
C46): one entry for each category of the complete rows; the overall mean is taken over all targets. -/
noncomputable def targetTable (minSamplesLeaf smoothing : ℝ) (target : String) (f : Frame (Cell ℝ) Ty) (c : String) :
    List (String × Val ℝ) :=
  let rows := pairs f c target
  (((Woe.clean rows).map Prod.fst).dedup).map fun k =>
    (k, .num (Woe.encode rows ((Woe.overallMean rows).getD 0) minSamplesLeaf smoothing k))

/-- The mapping learned by `woe_encode` (`transforms.py:525-527`, C45). -/
noncomputable def woeTable (target : String) (f : Frame (Cell ℝ) Ty) (c : String) : List (String × Val ℝ) :=
  let rows := pairs f c target
  let ks := ((Woe.clean rows).map Prod.fst).dedup
  ks.map fun k => (k, .num (Woe.woe rows ks k))

/-- `itertools.combinations_with_replacement`. -/
def combsWR : ℕ → List String → List (List String)
  | 0, _ => [[]]
  | _ + 1, [] => []
  | d + 1, c :: cs => ((combsWR d (c :: cs)).map (c :: ·)) ++ combsWR (d + 1) cs

/-- `pl.reduce(acc * x)` over the columns of a combination (`transforms.py:615`). -/
def product (comb : List String) (r : String → Option (Cell K)) : Option (Val K) :=
  match comb with
  | [] => none
  | c :: t => t.foldl (fun acc d => op2 vmul acc ((r d).bind Cell.val?)) ((r c).bind Cell.val?)

/-- `polynomial_features` (`transforms.py:591-618`). -/
def polynomial (cs : List String) (degree : ℤ) (interactionOnly : Bool) : Option (List (Ex (Cell K) Ty)) :=
  if degree ≤ 1 then none
  else some (((combsWR degree.toNat cs).filter fun comb => !interactionOnly || decide (comb.dedup.length > 1)).map
    fun comb => Ex.row ("*".intercalate comb) comb (fun _ => .num) fun r => (product comb r).map .num)

end Verif.Transforms
