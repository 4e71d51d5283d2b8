import Mathlib.Tactic.Common
import Mathlib.Tactic.Tauto
import Mathlib.Order.Basic
import Mathlib.Order.Lattice
import Mathlib.Order.MinMax
import Mathlib.Data.List.Basic
import Mathlib.Data.List.Pairwise
import Mathlib.Data.List.Perm.Basic
import Mathlib.Data.Int.Order.Basic

/-! Mathlib modules used by the proofs. -/
