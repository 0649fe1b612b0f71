import Verif.Log.Model
import Verif.Num.Model

/-!
# `LintelLogXML::parseXML`

`/repo/src/LintelLogXML.cpp:15-28` and `strGetXMLAttr`, `/repo/src/XMLUtil.cpp:14-27`. The element is its list of attributes, as libxml has parsed it; texts end at the
first NUL (libxml texts contain none).
-/

namespace Verif.Log.Xml
open Verif Verif.Str Verif.Num

/-- An XML element: names and values of its attributes. Used in the model of `LintelLogXML.cpp:15-28` (`parseXML`). -/
abbrev Node := List (Str × Str)

/-- `strGetXMLAttr`: the empty string when there is no such attribute. Used in the model of `LintelLogXML.cpp:15-28` (`parseXML`). -/
def strGetXMLAttr (n : Node) (attr : Str) : Str := (n.lookup attr).getD []

/-- "category" Used in the model of `LintelLogXML.cpp:15-28` (`parseXML`). -/
def category : Str := [99, 97, 116, 101, 103, 111, 114, 121]

/-- "level" Used in the model of `LintelLogXML.cpp:15-28` (`parseXML`). -/
def level : Str := [108, 101, 118, 101, 108]

/-- The level, lines 18-25. -/
def levelOf (levelStr : Str) : Res Nat :=
  if levelStr = [] then .ok 1
  else do
    let tmp ← stringToInteger uint32 levelStr
    Res.require (decide (tmp < 255))
    pure (u8 tmp.toNat)

/-- `parseXML`, lines 15-28. -/
def parseXML (s : Data) (n : Node) : Res Data := do
  let lv ← levelOf (strGetXMLAttr n level)
  setDebugLevel s (strGetXMLAttr n category) lv

end Verif.Log.Xml
