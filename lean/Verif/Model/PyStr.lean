import Verif.Model.Basic

/-!
# Python string primitives: `split` and `join` with a one-character separator
-/
namespace Vista

/-- `s.split(c)` for a one-character separator: always at least one piece. -/
def splitOn (c : Char) : Str → List Str
  | [] => [[]]
  | x :: xs =>
    if x = c then [] :: splitOn c xs
    else
      match splitOn c xs with
      | [] => [[x]]
      | w :: ws => (x :: w) :: ws

/-- `c.join(pieces)` for a one-character separator. -/
def joinWith (c : Char) : List Str → Str
  | [] => []
  | [w] => w
  | w :: w' :: ws => w ++ c :: joinWith c (w' :: ws)

end Vista
