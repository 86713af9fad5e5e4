import Mathlib.Algebra.Order.Field.Basic

/-!
# Isotonic regression (`src/num_ext/isotonic_regression.rs`)

The three buffers are kept as in the code: `x` and `w` hold the finished blocks in front and the unread input
behind.  Every read is an `Option`, `none` is the panic of an index out of bounds.
-/

namespace Verif.Iso
variable {K : Type} [Add K] [Mul K] [Div K] [Zero K] [One K] [LinearOrder K]

/-- The forward pooling loop (`src/num_ext/isotonic_regression.rs:38-43`).  The first argument is
`n - (i + 1)`, so `0` means `i + 1 = n`.  Returns `(i, sb, wb, xb)`. -/
def fwd (x w : List K) : Nat → Nat → K → K → K → Option (Nat × K × K × K)
  | 0, i, sb, wb, xb => some (i, sb, wb, xb)
  | m + 1, i, sb, wb, xb =>
    match x[i + 1]?, w[i + 1]? with
    | some xi, some wi =>
      if xi ≤ xb then fwd x w m (i + 1) (sb + wi * xi) (wb + wi) ((sb + wi * xi) / (wb + wi))
      else some (i, sb, wb, xb)
    | _, _ => none

/-- The backward pooling loop (`src/num_ext/isotonic_regression.rs:44-49`).  Returns `(b, sb, wb, xb)`. -/
def bwd (x w : List K) : Nat → K → K → K → Option (Nat × K × K × K)
  | 0, sb, wb, xb => some (0, sb, wb, xb)
  | b + 1, sb, wb, xb =>
    match x[b]?, w[b]? with
    | some xp, some wp =>
      if xb ≤ xp then bwd x w b (sb + wp * xp) (wb + wp) ((sb + wp * xp) / (wb + wp))
      else some (b + 1, sb, wb, xb)
    | _, _ => none

/-- Loop variables (`src/num_ext/isotonic_regression.rs:20-27`). -/
structure St (K : Type) where
  x : List K
  w : List K
  r : List Nat
  b : Nat
  i : Nat
  xp : K
  wp : K

/-- The stores at the end of an iteration (`src/num_ext/isotonic_regression.rs:51-58`). -/
def store (s : St K) (b i : Nat) (wb xb : K) : Option (St K) :=
  if b < s.x.length ∧ b < s.w.length ∧ b + 1 < s.r.length then
    some ⟨s.x.set b xb, s.w.set b wb, s.r.set (b + 1) (i + 1), b, i + 1, xb, wb⟩
  else none

/-- One iteration of the main loop (`src/num_ext/isotonic_regression.rs:30-58`). -/
def step (s : St K) : Option (St K) :=
  match s.x[s.i]?, s.w[s.i]? with
  | some xi, some wi =>
    if xi ≤ s.xp then
      (fwd s.x s.w (s.x.length - (s.i + 1)) s.i (s.wp * s.xp + wi * xi) (wi + s.wp)
        ((s.wp * s.xp + wi * xi) / (wi + s.wp))).bind fun f =>
      (bwd s.x s.w s.b f.2.1 f.2.2.1 f.2.2.2).bind fun g =>
      store s g.1 f.1 g.2.2.1 g.2.2.2
    else store s (s.b + 1) s.i wi xi
  | _, _ => none

/-- `while i < n` (`src/num_ext/isotonic_regression.rs:29-59`); `none` also when the fuel runs out. -/
def mainLoop : Nat → St K → Option (St K)
  | 0, s => if s.i < s.x.length then none else some s
  | fuel + 1, s => if s.i < s.x.length then (step s).bind (mainLoop fuel) else some s

/-- `for i in t..=f { x[i] = xk; }` (`src/num_ext/isotonic_regression.rs:66-68`). -/
def fill (x : List K) (t f : Nat) (xk : K) : Option (List K) :=
  (List.range' t (f + 1 - t)).foldlM (fun x i => if i < x.length then some (x.set i xk) else none) x

/-- `for k in (0..=b).rev()` (`src/num_ext/isotonic_regression.rs:62-70`), first argument `k + 1`.
`f = t - 1` wraps at `t = 0` (release build). -/
def expand (r : List Nat) : Nat → Nat → List K → Option (List K)
  | 0, _, x => some x
  | k + 1, f, x =>
    match r[k]?, x[k]? with
    | some t, some xk => (fill x t f xk).bind (expand r k (if t = 0 then 2 ^ 64 - 1 else t - 1))
    | _, _ => none

/-- `isotonic_regression` (`src/num_ext/isotonic_regression.rs:19-71`); called with `r` of length `n + 1`
and `n ≥ 2`. -/
def isotonic (x w : List K) : Option (List K) :=
  match x[0]?, w[0]? with
  | some x0, some w0 =>
    let r := ((List.replicate (x.length + 1) 0).set 0 0).set 1 1
    (mainLoop x.length ⟨x, w, r, 0, 1, x0, w0⟩).bind fun s => expand s.r (s.b + 1) (x.length - 1) s.x
  | _, _ => none

/-- Results of the expression. -/
inductive Out (K : Type) where
  | ok (col : List (Option K))
  | err (msg : String)
  | panic
deriving Repr, DecidableEq

/-- The weights used (`src/num_ext/isotonic_regression.rs:90-119`): checked and reversed if decreasing, or
all ones. -/
def weights (ws : Option (List (Option K))) (n : Nat) (increasing : Bool) : Except String (List K) :=
  match ws with
  | none => .ok (List.replicate n 1)
  | some ws =>
    if ws.length ≠ n then
      .error "Weights should not contain nulls and must be the same length as y."
    else match ws.mapM id with
      | none => .error "Weight should not contain nulls."
      | some w =>
        if w.any (fun x => decide (x ≤ 0)) then .error "Weight should not contain negative values."
        else .ok (if increasing then w else w.reverse)

/-- `pl_isotonic_regression` (`src/num_ext/isotonic_regression.rs:74-132`). -/
def plIsotonic (y : List (Option K)) (ws : Option (List (Option K))) (increasing : Bool) : Out K :=
  if y.length ≤ 1 then .ok y
  else match y.mapM id with
    | none => .err "Input should not contain nulls."
    | some y =>
      match weights ws y.length increasing with
      | .error e => .err e
      | .ok w =>
        match isotonic (if increasing then y else y.reverse) w with
        | none => .panic
        | some f => .ok ((if increasing then f else f.reverse).map some)

end Verif.Iso
