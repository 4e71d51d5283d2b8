import Verif.Model.SinkBlocks

/-!
# What it means that the body of a block only writes
-/
namespace Vista
namespace SinkBlocks

/-- The body only writes: it passes the texts `ws` to `write` and `writelines`, one after the other, and ends with `r`, whatever
number `write` returns.  It may also flush and ask whether it can write or is at a terminal.  If `runs`, lines are taken from
iterators, which may raise when their turn comes (the body then sees the exception); if not, no iterator raises. -/
inductive Writes {α : Type} (runs : Prop) : Client α → List Str → Res α → Prop
  | result (r : Res α) : Writes runs (.result r) [] r
  | write (s : Str) (next : Res Reply → Client α) (ws : List Str) (r : Res α) :
      (∀ reply, Writes runs (next (.ok reply)) ws r) → Writes runs (.call (.write s) next) (s :: ws) r
  | writelines (lines : List Str) (next : Res Reply → Client α) (ws : List Str) (r : Res α) :
      Writes runs (next (.ok .none)) ws r → Writes runs (.call (.writelines ⟨lines, none⟩) next) (lines ++ ws) r
  | raises (lines : List Str) (e : Exc) (next : Res Reply → Client α) (ws : List Str) (r : Res α) : runs →
      Writes runs (next (.error e)) ws r → Writes runs (.call (.writelines ⟨lines, some e⟩) next) (lines ++ ws) r
  | flush (next : Res Reply → Client α) (ws : List Str) (r : Res α) : Writes runs (next (.ok .none)) ws r → Writes runs (.call .flush next) ws r
  | isatty (next : Res Reply → Client α) (ws : List Str) (r : Res α) :
      Writes runs (next (.ok (.bool false))) ws r → Writes runs (.call .isatty next) ws r
  | writable (next : Res Reply → Client α) (ws : List Str) (r : Res α) :
      Writes runs (next (.ok (.bool true))) ws r → Writes runs (.call .writable next) ws r

end SinkBlocks
end Vista
