import Verif.Config.Model
/-
  Specification vocabulary for the config-block properties: which root block a (possibly nested)
  view aliases, and under which key prefix.  It mentions only parent links and names.
-/
namespace Vital.Config
open Vital

/-- `ViewOf h b r pre`: block `b` is root block `r` (with `pre` empty) or a chain of views of it;
    key `k` of `b` denotes key `pre ++ k` of `r`. -/
inductive ViewOf (h : Heap) : Nat → Nat → Str → Prop where
  | root {b blk} : h[b]? = some blk → blk.parent = none → ViewOf h b b []
  | view {v blk p r pre} : h[v]? = some blk → blk.parent = some p → ViewOf h p r pre →
      ViewOf h v r (pre ++ (blk.name ++ [':']))

/-- Key `k` of block `b` denotes the entry `fk` of root block `r`. -/
def Denotes (h : Heap) (b : Nat) (k : Str) (r : Nat) (fk : Str) : Prop :=
  ∃ pre, ViewOf h b r pre ∧ fk = pre ++ k

/-- `b` is a root block (created by `empty_config` or `subblock`). -/
def IsRoot (h : Heap) (b : Nat) : Prop := ∃ blk, h[b]? = some blk ∧ blk.parent = none

/-- Two handles and keys name the same entry. -/
def SameEntry (h : Heap) (b : Nat) (k : Str) (b' : Nat) (k' : Str) : Prop :=
  ∃ r fk, Denotes h b k r fk ∧ Denotes h b' k' r fk

end Vital.Config
