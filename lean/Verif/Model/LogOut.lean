import Verif.Model.Log
/-
Model of what the writer of spex.log (src/spex/log/_log_config.py) prints to the standard output besides.
-/
set_option autoImplicit false
namespace Spex

/-- What jsonify_exc prints for an exception (_log_config.py:65-69); `repr` is what `repr` makes of an exception, whose texts are data here. -/
def causePrints (repr : PyExc → Str) : PyExc → Str
  | .mk _ _ _ none => []
  | .mk _ _ _ (some cause) => c!"CAUSE\n" ++ (repr cause ++ (c!"\n/CAUSE\n" ++ causePrints repr cause))

/-- a call of the logger: LogFileSerializer is called for the levels from DEBUG on (_log_config.py:149-151, 160-166), and what was printed before
stays -/
def logPrint (repr : PyExc → Str) (out : Str) (r : LogRec) : Str :=
  if LogLevel.debug.no ≤ r.level.no then
    match r.exception with
    | none => out
    | some e => out ++ causePrints repr e
  else out

/-- what a run prints to the standard output through the logger (_log_config.py:139-166) -/
def logPrints (repr : PyExc → Str) (rs : List LogRec) : Str := rs.foldl (logPrint repr) []

end Spex
