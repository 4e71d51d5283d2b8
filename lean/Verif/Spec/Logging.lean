import Verif.Model.Logging

/-!
# Vocabulary for logging
-/
namespace Vista
namespace Logging

/-- The names of the levels and their numbers. -/
inductive Level : Str → Nat → Prop
  | critical : Level "CRITICAL".toList 50
  | fatal : Level "FATAL".toList 50
  | error : Level "ERROR".toList 40
  | warning : Level "WARNING".toList 30
  | warn : Level "WARN".toList 30
  | info : Level "INFO".toList 20
  | debug : Level "DEBUG".toList 10

/-- How many times a message of the level is printed on the standard output, in a program whose loggers are not disabled. -/
def timesPrinted (st : State) (level : Nat) : Nat := if level < st.rootLevel then 0 else st.handlers.countP fun h => decide (h ≤ level)

end Logging
end Vista
