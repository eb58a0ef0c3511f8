import Verif.Spec.Csv
/-!
# Specification: reading the log of measurements
-/

namespace Attimo.Spec

/-- the fields of the lines after the first one -/
def readLog (text : List Char) : List (List (List Char)) := ((cut '\n' text).dropLast.drop 1).map (cut ',')

end Attimo.Spec
