import Verif.Log.Model
import Verif.Num.Model

/-!
# Model of `LintelLog::parseDebugString` (`/repo/src/LintelLog.cpp:52-66`)
-/

namespace Verif.Log
open Verif.Str

/-- One comma separated entry, `LintelLog.cpp:57-64`; 61 is `'='`. -/
def parsePart (s : Data) (part : Str) : Res Data := do
  let subparts ← split part [61] []
  match subparts with
  | [_] => setDebugLevel s part 1
  | [name, level] => do
    let v ← Num.stringToInteger Num.uint32 level
    setDebugLevel s name v.toNat
  | _ => .abort

/-- The loop over the entries, `LintelLog.cpp:55-65`. -/
def parseParts (s : Data) : List Str → Res Data
  | [] => .ok s
  | p :: ps => do
    let s' ← parsePart s p
    parseParts s' ps

/-- `parseDebugString`, `LintelLog.cpp:52-66`; 44 is `','`. -/
def parseDebugString (s : Data) (str : Str) : Res Data := do
  let parts ← split str [44] []
  parseParts s parts

end Verif.Log
