import Verif.Tsc.Spec
import Mathlib.Algebra.Group.Defs
/-!
# Specification of time delay embedding (nothing here depends on the model)
-/

namespace Verif.Takens

/-- Delay number `k` (counting from 0). -/
def delay (lag frequency k : Nat) : Nat := lag + 1 + k * frequency

/-- The largest of `delays ≥ 1` delays. -/
def largestDelay (lag delays frequency : Nat) : Nat := delay lag frequency (delays - 1)

/-- `s'` is the delay embedding of the series `s` ((time, features) pairs): the first `largestDelay` samples are lost, and the row for sample `j` has
the time of sample `j` and the features of sample `j` followed, for every delay `d` number `k`, by those of sample `j - d`, each changed by `scale k`. -/
def IsEmbedding {α : Type} (lag delays frequency : Nat) (scale : Nat → α → α) (s s' : List (Int × List α)) : Prop :=
  s'.length = s.length - largestDelay lag delays frequency ∧
  ∀ j (_ : largestDelay lag delays frequency ≤ j) (hj : j < s.length),
    s'[j - largestDelay lag delays frequency]? = some (s[j].1,
      s[j].2 ++ (List.range delays).flatMap (fun k => (s[j - delay lag frequency k]'(by omega)).2.map (scale k)))

/-- All rows have one value per column. -/
def Rect {α : Type} (n : Nat) (c : List (Verif.Tsc.Row Int (List α))) : Prop := ∀ r ∈ c, r.val.length = n

end Verif.Takens
