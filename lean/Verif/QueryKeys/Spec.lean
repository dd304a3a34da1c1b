import Verif.QueryKeys.Model

namespace Verif.QueryKeys.Spec
open Verif.QueryKeys

/-- The key with every other character replaced by an underscore. -/
def normal (isWord : Char → Bool) (k : Key) : Key := k.map (fun c => if isWord c then c else '_')

/-- The value of the last entry of the list whose normalised key is `k`. -/
def lastValue {V : Type} (isWord : Char → Bool) (d : List (Key × V)) (k : Key) : Option V :=
  (d.reverse.find? (fun e => normal isWord e.1 = k)).map (·.2)

end Verif.QueryKeys.Spec
