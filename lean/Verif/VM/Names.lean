import Verif.VM.Ast

/-!
# Names

The names used by `start.noja` and by the tables of builtins, as the bytes that the C code compares.
-/

namespace Noja.VM.N

def underscore : Name := [95]
/-- codegen.c:578: functions in map literals -/
def anon : Name := [63, 63, 63]
def abs : Name := [97, 98, 115]
def any : Name := [97, 110, 121]
def append : Name := [97, 112, 112, 101, 110, 100]
def array : Name := [97, 114, 114, 97, 121]
def asint : Name := [97, 115, 105, 110, 116]
def assert : Name := [97, 115, 115, 101, 114, 116]
def bool : Name := [98, 111, 111, 108]
def Buffer : Name := [66, 117, 102, 102, 101, 114]
def buffer : Name := [98, 117, 102, 102, 101, 114]
def Callable : Name := [67, 97, 108, 108, 97, 98, 108, 101]
def can_use_method : Name := [99, 97, 110, 95, 117, 115, 101, 95, 109, 101, 116, 104, 111, 100]
def cat : Name := [99, 97, 116]
def char : Name := [99, 104, 97, 114]
def chr : Name := [99, 104, 114]
def Collection : Name := [67, 111, 108, 108, 101, 99, 116, 105, 111, 110]
def count : Name := [99, 111, 117, 110, 116]
def digit : Name := [100, 105, 103, 105, 116]
def Directory : Name := [68, 105, 114, 101, 99, 116, 111, 114, 121]
def dummy : Name := [100, 117, 109, 109, 121]
def epsilon : Name := [101, 112, 115, 105, 108, 111, 110]
def error : Name := [101, 114, 114, 111, 114]
def f : Name := [102]
def File : Name := [70, 105, 108, 101]
def files : Name := [102, 105, 108, 101, 115]
def float : Name := [102, 108, 111, 97, 116]
def floatFromInteger : Name := [102, 108, 111, 97, 116, 70, 114, 111, 109, 73, 110, 116, 101, 103, 101, 114]
def floor : Name := [102, 108, 111, 111, 114]
def Func : Name := [70, 117, 110, 99]
def GenericIterator : Name := [71, 101, 110, 101, 114, 105, 99, 73, 116, 101, 114, 97, 116, 111, 114]
def getCurrentScriptDirectory : Name := [103, 101, 116, 67, 117, 114, 114, 101, 110, 116, 83, 99, 114, 105, 112, 116, 68, 105, 114, 101, 99, 116, 111, 114, 121]
def getCurrentScriptLocation : Name := [103, 101, 116, 67, 117, 114, 114, 101, 110, 116, 83, 99, 114, 105, 112, 116, 76, 111, 99, 97, 116, 105, 111, 110]
def getCurrentWorkingDirectory : Name := [103, 101, 116, 67, 117, 114, 114, 101, 110, 116, 87, 111, 114, 107, 105, 110, 103, 68, 105, 114, 101, 99, 116, 111, 114, 121]
def getIntegerMagnitude : Name := [103, 101, 116, 73, 110, 116, 101, 103, 101, 114, 77, 97, 103, 110, 105, 116, 117, 100, 101]
def has_method : Name := [104, 97, 115, 95, 109, 101, 116, 104, 111, 100]
def i : Name := [105]
def «import» : Name := [105, 109, 112, 111, 114, 116]
def index : Name := [105, 110, 100, 101, 120]
def input : Name := [105, 110, 112, 117, 116]
def int : Name := [105, 110, 116]
def integerFromDigit : Name := [105, 110, 116, 101, 103, 101, 114, 70, 114, 111, 109, 68, 105, 103, 105, 116]
def isCallable : Name := [105, 115, 67, 97, 108, 108, 97, 98, 108, 101]
def istypeof : Name := [105, 115, 116, 121, 112, 101, 111, 102]
def item : Name := [105, 116, 101, 109]
def iter : Name := [105, 116, 101, 114]
def key : Name := [107, 101, 121]
def keys : Name := [107, 101, 121, 115]
def keysof : Name := [107, 101, 121, 115, 111, 102]
def List : Name := [76, 105, 115, 116]
def list : Name := [108, 105, 115, 116]
def magn : Name := [109, 97, 103, 110]
def makeGenericIterator : Name := [109, 97, 107, 101, 71, 101, 110, 101, 114, 105, 99, 73, 116, 101, 114, 97, 116, 111, 114]
def makeIterator : Name := [109, 97, 107, 101, 73, 116, 101, 114, 97, 116, 111, 114]
def Map : Name := [77, 97, 112]
def map : Name := [109, 97, 112]
def math : Name := [109, 97, 116, 104]
def max : Name := [109, 97, 120]
def max_decimals : Name := [109, 97, 120, 95, 100, 101, 99, 105, 109, 97, 108, 115]
def min : Name := [109, 105, 110]
def n : Name := [110]
def negative : Name := [110, 101, 103, 97, 116, 105, 118, 101]
def net : Name := [110, 101, 116]
def next : Name := [110, 101, 120, 116]
def NFunc : Name := [78, 70, 117, 110, 99]
def None : Name := [78, 111, 110, 101]
def none : Name := [110, 111, 110, 101]
def NullableType : Name := [78, 117, 108, 108, 97, 98, 108, 101, 84, 121, 112, 101]
def num : Name := [110, 117, 109]
def Numeric : Name := [78, 117, 109, 101, 114, 105, 99]
def ord : Name := [111, 114, 100]
def power : Name := [112, 111, 119, 101, 114]
def powr : Name := [112, 111, 119, 114]
def print : Name := [112, 114, 105, 110, 116]
def random : Name := [114, 97, 110, 100, 111, 109]
def res : Name := [114, 101, 115]
def s : Name := [115]
def set : Name := [115, 101, 116]
def slice : Name := [115, 108, 105, 99, 101]
def String : Name := [83, 116, 114, 105, 110, 103]
def string : Name := [115, 116, 114, 105, 110, 103]
def stringFromDigit : Name := [115, 116, 114, 105, 110, 103, 70, 114, 111, 109, 68, 105, 103, 105, 116]
def stringFromFloating : Name := [115, 116, 114, 105, 110, 103, 70, 114, 111, 109, 70, 108, 111, 97, 116, 105, 110, 103]
def stringFromInteger : Name := [115, 116, 114, 105, 110, 103, 70, 114, 111, 109, 73, 110, 116, 101, 103, 101, 114]
def stringFromList : Name := [115, 116, 114, 105, 110, 103, 70, 114, 111, 109, 76, 105, 115, 116]
def stringFromMap : Name := [115, 116, 114, 105, 110, 103, 70, 114, 111, 109, 77, 97, 112]
def stringFromNumeric : Name := [115, 116, 114, 105, 110, 103, 70, 114, 111, 109, 78, 117, 109, 101, 114, 105, 99]
def SumType : Name := [83, 117, 109, 84, 121, 112, 101]
def T : Name := [84]
def temp : Name := [116, 101, 109, 112]
def text : Name := [116, 101, 120, 116]
def toInt : Name := [116, 111, 73, 110, 116]
def toString : Name := [116, 111, 83, 116, 114, 105, 110, 103]
def trim : Name := [116, 114, 105, 109]
def «Type» : Name := [84, 121, 112, 101]
def type : Name := [116, 121, 112, 101]
def typename : Name := [116, 121, 112, 101, 110, 97, 109, 101]
def val : Name := [118, 97, 108]
def value : Name := [118, 97, 108, 117, 101]
def x : Name := [120]
def y : Name := [121]

/-! math.c:139-162, buffer.c:93-98 -/

def PI : Name := [80, 73]
def E : Name := [69]
def ceil : Name := [99, 101, 105, 108]
def cos : Name := [99, 111, 115]
def sin : Name := [115, 105, 110]
def tan : Name := [116, 97, 110]
def acos : Name := [97, 99, 111, 115]
def asin : Name := [97, 115, 105, 110]
def atan : Name := [97, 116, 97, 110]
def atan2 : Name := [97, 116, 97, 110, 50]
def exp : Name := [101, 120, 112]
def log : Name := [108, 111, 103]
def log10 : Name := [108, 111, 103, 49, 48]
def pow : Name := [112, 111, 119]
def sqrt : Name := [115, 113, 114, 116]
def «new» : Name := [110, 101, 119]
def sliceUp : Name := [115, 108, 105, 99, 101, 85, 112]
def fromString : Name := [102, 114, 111, 109, 83, 116, 114, 105, 110, 103]

end Noja.VM.N
