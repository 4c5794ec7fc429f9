import Verif.Base.Bytes

/-!
# Specification: the numbers of enumerators

The names in the order of the headers; the number of a name is its position.
-/

namespace Hx.Spec

/-- `hxhim_op_t` (include/hxhim/constants.h:66-79). -/
def opNames : List String := ["PUT", "GET", "GETOP", "DELETE", "SYNC", "HISTOGRAM", "INVALID"]

/-- `hxhim_getop_t` (include/hxhim/constants.h:104-119). -/
def getOpNames : List String := ["EQ", "NEXT", "PREV", "FIRST", "LAST", "LOWEST", "HIGHEST", "INVALID"]

/-- `hxhim_data_t` (include/hxhim/constants.h:130-146). -/
def dataNames : List String :=
  ["INVALID", "INT32", "INT64", "UINT32", "UINT64", "FLOAT", "DOUBLE", "BYTE", "POINTER", "MAX_KNOWN"]

/-- `Direction` (include/message/Message.hpp:16-20). -/
def directionNames : List String := ["NONE", "REQUEST", "RESPONSE"]

end Hx.Spec
