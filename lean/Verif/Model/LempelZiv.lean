import Mathlib.Data.List.Basic

/-!
# Lempel-Ziv complexity (`src/num_ext/lempel_ziv.rs`)
-/

namespace Verif.LZ

/-- The loop of `pl_lempel_ziv_complexity` (`src/num_ext/lempel_ziv.rs:14-25`); the set of slices is the list of its
members.  Every step increases `ind + inc`, so `fuel = bits.length` steps are enough. -/
def lzLoop (bits : List Bool) : Nat → Nat → Nat → List (List Bool) → List (List Bool)
  | 0, _, _, subs => subs
  | fuel + 1, ind, inc, subs =>
    if ind + inc ≤ bits.length then
      let subseq := (bits.drop ind).take inc
      if subseq ∈ subs then lzLoop bits fuel ind (inc + 1) subs
      else lzLoop bits fuel (ind + inc) 1 (subs ++ [subseq])
    else subs

/-- `pl_lempel_ziv_complexity` (`src/num_ext/lempel_ziv.rs:5-28`); nulls count as `false`. -/
def complexity (col : List (Option Bool)) : Nat :=
  let bits := col.map fun o => o.getD false
  (lzLoop bits bits.length 0 1 []).length

end Verif.LZ
