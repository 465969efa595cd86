/-
The unit tests of the repository for the JSON forms (tests/json_suite.cpp), run on the model with the quoting of
`Verif/Model/JsonInstances.lean`: the text of a value of each type as constructed.
-/
import Verif.Model.JsonRecords
import Verif.Model.JsonInstances

namespace Wrtstat
namespace Suite

set_option autoImplicit false

/-- The text of a record of a type. -/
def recText (c : Bool) (K : RecKind) : String := String.ofList ((write c (recCodec c K) {}).text quote)

/-- The text of a value. -/
def textOf {R : Type} (c : Bool) (fs : List (Field R)) (r : R) : String := String.ofList ((write c fs r).text quote)

/-- `json1` (tests/json_suite.cpp:35-58). -/
example : recText false .reducedInfo = "{\"ts\":0,\"avg\":0,\"count\":0,\"lossy\":0,\"min\":0,\"max\":0}" ∧
    recText true .reducedInfo = "[0,0,0,0,0,0]" ∧
    recText false .reducedData = "{\"ts\":0,\"avg\":0,\"count\":0,\"lossy\":0,\"min\":0,\"max\":0,\"data\":[]}" ∧
    recText false .aggPerc = "{\"perc50\":0,\"perc80\":0,\"perc95\":0,\"perc99\":0,\"perc100\":0}" ∧
    recText true .aggPerc = "[0,0,0,0,0]" ∧
    recText false .aggInfo = "{\"ts\":0,\"avg\":0,\"count\":0,\"perc50\":0,\"perc80\":0,\"perc95\":0,\"perc99\":0,\"perc100\":0,\"lossy\":0,\"min\":0,\"max\":0}" ∧
    recText true .aggInfo = "[0,0,0,0,0,0,0,0,0,0,0]" ∧
    recText false .aggData = "{\"ts\":0,\"avg\":0,\"count\":0,\"perc50\":0,\"perc80\":0,\"perc95\":0,\"perc99\":0,\"perc100\":0,\"lossy\":0,\"min\":0,\"max\":0,\"data\":[]}" ∧
    recText true .aggData = "[0,0,0,0,0,0,0,0,0,0,0,[]]" := by decide +kernel

/-- `json2` (tests/json_suite.cpp:60-85). -/
example : textOf false (pushCodec false) {} = "{\"name\":\"\",\"ts\":0,\"avg\":0,\"count\":0,\"perc50\":0,\"perc80\":0,\"perc95\":0,\"perc99\":0,\"perc100\":0,\"lossy\":0,\"min\":0,\"max\":0,\"data\":[]}" ∧
    textOf false pushReplyCodec {} = "{\"status\":true}" ∧
    textOf false delCodec {} = "{\"names\":[]}" ∧
    textOf false delReplyCodec {} = "{}" ∧
    textOf false (multiCodec false) {} = "{\"sep\":\"~~\",\"legend\":[],\"data\":[]}" ∧
    textOf false multiReplyCodec {} = "{\"status\":true,\"error\":\"\"}" ∧
    textOf true (pushCodec true) {} = "[\"\",0,0,0,0,0,0,0,0,0,0,0,[]]" ∧
    textOf true pushReplyCodec {} = "[true]" ∧
    textOf true (multiCodec true) {} = "[\"~~\",[],[]]" ∧
    textOf true multiReplyCodec {} = "[true,\"\"]" := by decide +kernel

end Suite
end Wrtstat
