import Verif.VM.Start.Prog
import Verif.Parse.Model
import Verif.VM.Trans

/-!
# The text of `start.noja`

The bytes of `src/lib/builtins/start.noja`, line by line, and a proof that the model of the parser
turns them into the program of `Verif.VM.Start.Prog`.
-/

set_option linter.unusedVariables false
set_option maxRecDepth 100000

namespace Noja.VM

deriving instance DecidableEq for Expr, Target, Targets, Call, Exprs, Pairs, FunDef, Params, OExpr, Stmt, Stmts

namespace Start

def lines : List (List UInt8) := [
  [13, 10],
  [102, 117, 110, 32, 100, 117, 109, 109, 121, 40, 41, 32, 123, 125, 13, 10],
  [13, 10],
  [70, 117, 110, 99, 32, 32, 61, 32, 116, 121, 112, 101, 40, 100, 117, 109, 109, 121, 41, 59, 13, 10],
  [78, 70, 117, 110, 99, 32, 61, 32, 116, 121, 112, 101, 40, 112, 114, 105, 110, 116, 41, 59, 13, 10],
  [78, 117, 109, 101, 114, 105, 99, 32, 61, 32, 105, 110, 116, 32, 124, 32, 102, 108, 111, 97, 116, 59, 13, 10],
  [67, 97, 108, 108, 97, 98, 108, 101, 32, 61, 32, 70, 117, 110, 99, 32, 124, 32, 78, 70, 117, 110, 99, 59, 13, 10],
  [67, 111, 108, 108, 101, 99, 116, 105, 111, 110, 32, 61, 32, 76, 105, 115, 116, 32, 124, 32, 77, 97, 112, 59, 13, 10],
  [13, 10],
  [99, 104, 114, 32, 61, 32, 115, 116, 114, 105, 110, 103, 46, 99, 104, 114, 59, 13, 10],
  [111, 114, 100, 32, 61, 32, 115, 116, 114, 105, 110, 103, 46, 111, 114, 100, 59, 13, 10],
  [99, 97, 116, 32, 61, 32, 115, 116, 114, 105, 110, 103, 46, 99, 97, 116, 59, 13, 10],
  [13, 10],
  [35, 32, 83, 116, 114, 105, 110, 103, 105, 102, 121, 32, 97, 32, 110, 117, 109, 98, 101, 114, 32, 98, 101, 116, 119, 101, 101, 110, 32, 48, 32, 97, 110, 100, 32, 57, 46, 13, 10],
  [102, 117, 110, 32, 115, 116, 114, 105, 110, 103, 70, 114, 111, 109, 68, 105, 103, 105, 116, 40, 100, 105, 103, 105, 116, 58, 32, 105, 110, 116, 41, 32, 123, 13, 10],
  [9, 97, 115, 115, 101, 114, 116, 40, 100, 105, 103, 105, 116, 32, 62, 61, 32, 48, 32, 97, 110, 100, 32, 100, 105, 103, 105, 116, 32, 60, 61, 32, 57, 41, 59, 13, 10],
  [9, 114, 101, 116, 117, 114, 110, 32, 99, 104, 114, 40, 111, 114, 100, 40, 34, 48, 34, 41, 32, 43, 32, 100, 105, 103, 105, 116, 41, 59, 13, 10],
  [125, 13, 10],
  [13, 10],
  [35, 32, 84, 104, 105, 115, 32, 102, 117, 110, 99, 116, 105, 111, 110, 32, 114, 101, 116, 117, 114, 110, 115, 32, 116, 104, 101, 32, 109, 97, 103, 110, 105, 116, 117, 100, 101, 32, 111, 102, 32, 116, 104, 101, 13, 10],
  [35, 32, 97, 114, 103, 117, 109, 101, 110, 116, 32, 97, 110, 100, 32, 116, 104, 101, 32, 112, 111, 119, 101, 114, 32, 111, 102, 32, 49, 48, 32, 119, 105, 116, 104, 32, 116, 104, 101, 32, 115, 97, 109, 101, 13, 10],
  [35, 32, 109, 97, 103, 110, 105, 116, 117, 100, 101, 46, 13, 10],
  [102, 117, 110, 32, 103, 101, 116, 73, 110, 116, 101, 103, 101, 114, 77, 97, 103, 110, 105, 116, 117, 100, 101, 40, 110, 58, 32, 105, 110, 116, 41, 32, 123, 13, 10],
  [9, 97, 115, 115, 101, 114, 116, 40, 110, 32, 62, 61, 32, 48, 41, 59, 13, 10],
  [9, 109, 97, 103, 110, 32, 61, 32, 48, 59, 13, 10],
  [9, 112, 111, 119, 114, 32, 61, 32, 49, 59, 13, 10],
  [9, 35, 32, 66, 97, 115, 105, 99, 97, 108, 108, 121, 32, 103, 114, 111, 119, 32, 116, 104, 101, 32, 112, 111, 119, 101, 114, 32, 117, 110, 116, 105, 108, 32, 105, 116, 39, 115, 13, 10],
  [9, 35, 32, 98, 105, 103, 103, 101, 114, 32, 116, 104, 97, 110, 32, 116, 104, 101, 32, 105, 110, 112, 117, 116, 46, 13, 10],
  [9, 119, 104, 105, 108, 101, 32, 110, 32, 62, 61, 32, 112, 111, 119, 114, 32, 42, 32, 49, 48, 58, 32, 123, 13, 10],
  [9, 9, 112, 111, 119, 114, 32, 61, 32, 49, 48, 32, 42, 32, 112, 111, 119, 114, 59, 13, 10],
  [9, 9, 109, 97, 103, 110, 32, 61, 32, 49, 32, 43, 32, 109, 97, 103, 110, 59, 13, 10],
  [9, 125, 13, 10],
  [9, 114, 101, 116, 117, 114, 110, 32, 109, 97, 103, 110, 44, 32, 112, 111, 119, 114, 59, 13, 10],
  [125, 13, 10],
  [13, 10],
  [35, 32, 83, 116, 114, 105, 110, 103, 105, 102, 121, 32, 97, 110, 32, 117, 110, 115, 105, 103, 110, 101, 100, 32, 105, 110, 116, 101, 103, 101, 114, 13, 10],
  [102, 117, 110, 32, 115, 116, 114, 105, 110, 103, 70, 114, 111, 109, 73, 110, 116, 101, 103, 101, 114, 40, 110, 58, 32, 105, 110, 116, 41, 32, 123, 13, 10],
  [13, 10],
  [9, 110, 101, 103, 97, 116, 105, 118, 101, 32, 61, 32, 40, 110, 32, 60, 32, 48, 41, 59, 13, 10],
  [9, 13, 10],
  [9, 35, 32, 71, 101, 116, 32, 116, 104, 101, 32, 112, 111, 119, 101, 114, 32, 111, 102, 32, 49, 48, 32, 119, 105, 116, 104, 32, 116, 104, 101, 13, 10],
  [9, 35, 32, 109, 97, 103, 110, 105, 116, 117, 100, 101, 32, 111, 102, 32, 116, 104, 101, 32, 105, 110, 112, 117, 116, 46, 13, 10],
  [9, 95, 44, 32, 112, 111, 119, 101, 114, 32, 61, 32, 103, 101, 116, 73, 110, 116, 101, 103, 101, 114, 77, 97, 103, 110, 105, 116, 117, 100, 101, 40, 110, 41, 59, 13, 10],
  [13, 10],
  [9, 116, 101, 109, 112, 32, 61, 32, 97, 98, 115, 40, 110, 41, 59, 32, 35, 32, 84, 101, 109, 112, 111, 114, 97, 114, 121, 32, 99, 111, 112, 121, 32, 111, 102, 32, 116, 104, 101, 32, 105, 110, 112, 117, 116, 13, 10],
  [9, 116, 101, 120, 116, 32, 61, 32, 34, 34, 59, 32, 35, 32, 84, 104, 101, 32, 111, 117, 116, 112, 117, 116, 32, 119, 101, 39, 114, 101, 32, 97, 98, 111, 117, 116, 32, 116, 111, 32, 99, 111, 109, 112, 117, 116, 101, 13, 10],
  [9, 13, 10],
  [9, 119, 104, 105, 108, 101, 32, 112, 111, 119, 101, 114, 32, 62, 61, 32, 49, 58, 32, 123, 13, 10],
  [9, 9, 35, 32, 80, 111, 112, 32, 116, 104, 101, 32, 108, 101, 102, 116, 109, 111, 115, 116, 32, 100, 105, 103, 105, 116, 32, 102, 114, 111, 109, 32, 91, 116, 101, 109, 112, 93, 46, 13, 10],
  [9, 9, 100, 105, 103, 105, 116, 32, 61, 32, 116, 101, 109, 112, 32, 47, 32, 112, 111, 119, 101, 114, 59, 32, 35, 32, 71, 101, 116, 32, 116, 104, 101, 32, 108, 101, 102, 116, 109, 111, 115, 116, 32, 100, 105, 103, 105, 116, 13, 10],
  [9, 9, 116, 101, 109, 112, 32, 32, 61, 32, 116, 101, 109, 112, 32, 37, 32, 112, 111, 119, 101, 114, 59, 32, 35, 32, 82, 101, 109, 111, 118, 101, 32, 105, 116, 13, 10],
  [13, 10],
  [9, 9, 35, 32, 65, 100, 100, 32, 116, 104, 101, 32, 100, 105, 103, 105, 116, 32, 116, 111, 32, 116, 104, 101, 32, 111, 117, 116, 112, 117, 116, 46, 13, 10],
  [9, 9, 116, 101, 120, 116, 32, 61, 32, 99, 97, 116, 40, 116, 101, 120, 116, 44, 32, 115, 116, 114, 105, 110, 103, 70, 114, 111, 109, 68, 105, 103, 105, 116, 40, 100, 105, 103, 105, 116, 41, 41, 59, 13, 10],
  [13, 10],
  [9, 9, 35, 32, 80, 114, 101, 112, 32, 102, 111, 114, 32, 116, 104, 101, 32, 110, 101, 120, 116, 32, 105, 116, 101, 114, 97, 116, 105, 111, 110, 46, 13, 10],
  [9, 9, 112, 111, 119, 101, 114, 32, 61, 32, 112, 111, 119, 101, 114, 32, 47, 32, 49, 48, 59, 13, 10],
  [9, 125, 13, 10],
  [13, 10],
  [9, 105, 102, 32, 110, 101, 103, 97, 116, 105, 118, 101, 58, 13, 10],
  [9, 9, 116, 101, 120, 116, 32, 61, 32, 99, 97, 116, 40, 34, 45, 34, 44, 32, 116, 101, 120, 116, 41, 59, 13, 10],
  [9, 114, 101, 116, 117, 114, 110, 32, 116, 101, 120, 116, 59, 13, 10],
  [125, 13, 10],
  [13, 10],
  [102, 117, 110, 32, 115, 116, 114, 105, 110, 103, 70, 114, 111, 109, 70, 108, 111, 97, 116, 105, 110, 103, 40, 102, 58, 32, 102, 108, 111, 97, 116, 44, 32, 109, 97, 120, 95, 100, 101, 99, 105, 109, 97, 108, 115, 58, 32, 105, 110, 116, 32, 61, 32, 50, 41, 32, 123, 13, 10],
  [9, 35, 32, 84, 104, 105, 115, 32, 102, 117, 110, 99, 116, 105, 111, 110, 32, 105, 115, 32, 106, 117, 115, 116, 32, 97, 32, 102, 97, 115, 116, 32, 104, 97, 99, 107, 13, 10],
  [9, 101, 112, 115, 105, 108, 111, 110, 32, 61, 32, 48, 46, 48, 48, 48, 48, 48, 48, 48, 49, 59, 13, 10],
  [9, 97, 115, 105, 110, 116, 32, 61, 32, 109, 97, 116, 104, 46, 102, 108, 111, 111, 114, 40, 102, 41, 59, 13, 10],
  [9, 116, 101, 120, 116, 32, 61, 32, 115, 116, 114, 105, 110, 103, 70, 114, 111, 109, 73, 110, 116, 101, 103, 101, 114, 40, 97, 115, 105, 110, 116, 41, 59, 13, 10],
  [9, 116, 101, 120, 116, 32, 61, 32, 99, 97, 116, 40, 116, 101, 120, 116, 44, 32, 34, 46, 34, 41, 59, 13, 10],
  [9, 109, 97, 103, 110, 32, 61, 32, 49, 46, 48, 59, 13, 10],
  [9, 116, 101, 109, 112, 32, 61, 32, 102, 32, 45, 32, 97, 115, 105, 110, 116, 59, 13, 10],
  [9, 105, 32, 61, 32, 48, 59, 13, 10],
  [9, 100, 111, 32, 123, 13, 10],
  [9, 9, 109, 97, 103, 110, 32, 61, 32, 109, 97, 103, 110, 32, 47, 32, 49, 48, 59, 13, 10],
  [9, 9, 100, 105, 103, 105, 116, 32, 61, 32, 109, 97, 116, 104, 46, 102, 108, 111, 111, 114, 40, 116, 101, 109, 112, 32, 47, 32, 109, 97, 103, 110, 41, 59, 13, 10],
  [9, 9, 116, 101, 120, 116, 32, 61, 32, 99, 97, 116, 40, 116, 101, 120, 116, 44, 32, 115, 116, 114, 105, 110, 103, 70, 114, 111, 109, 68, 105, 103, 105, 116, 40, 100, 105, 103, 105, 116, 41, 41, 59, 13, 10],
  [9, 9, 116, 101, 109, 112, 32, 61, 32, 116, 101, 109, 112, 32, 45, 32, 109, 97, 103, 110, 32, 42, 32, 100, 105, 103, 105, 116, 59, 32, 35, 32, 82, 101, 109, 111, 118, 101, 32, 116, 104, 101, 32, 104, 97, 110, 100, 108, 101, 100, 32, 100, 105, 103, 105, 116, 13, 10],
  [9, 9, 105, 32, 61, 32, 105, 43, 49, 59, 13, 10],
  [9, 125, 32, 119, 104, 105, 108, 101, 32, 116, 101, 109, 112, 32, 62, 32, 101, 112, 115, 105, 108, 111, 110, 32, 97, 110, 100, 32, 105, 32, 60, 32, 109, 97, 120, 95, 100, 101, 99, 105, 109, 97, 108, 115, 59, 13, 10],
  [9, 114, 101, 116, 117, 114, 110, 32, 116, 101, 120, 116, 59, 13, 10],
  [125, 13, 10],
  [13, 10],
  [102, 117, 110, 32, 115, 116, 114, 105, 110, 103, 70, 114, 111, 109, 78, 117, 109, 101, 114, 105, 99, 40, 110, 117, 109, 58, 32, 78, 117, 109, 101, 114, 105, 99, 41, 32, 123, 13, 10],
  [9, 105, 102, 32, 116, 121, 112, 101, 40, 110, 117, 109, 41, 32, 61, 61, 32, 105, 110, 116, 58, 13, 10],
  [9, 9, 114, 101, 116, 117, 114, 110, 32, 115, 116, 114, 105, 110, 103, 70, 114, 111, 109, 73, 110, 116, 101, 103, 101, 114, 40, 110, 117, 109, 41, 59, 13, 10],
  [9, 114, 101, 116, 117, 114, 110, 32, 115, 116, 114, 105, 110, 103, 70, 114, 111, 109, 70, 108, 111, 97, 116, 105, 110, 103, 40, 110, 117, 109, 41, 59, 13, 10],
  [125, 13, 10],
  [13, 10],
  [102, 117, 110, 32, 102, 108, 111, 97, 116, 70, 114, 111, 109, 73, 110, 116, 101, 103, 101, 114, 40, 110, 58, 32, 105, 110, 116, 41, 13, 10],
  [9, 114, 101, 116, 117, 114, 110, 32, 49, 46, 48, 32, 42, 32, 110, 59, 13, 10],
  [13, 10],
  [102, 117, 110, 32, 115, 116, 114, 105, 110, 103, 70, 114, 111, 109, 76, 105, 115, 116, 40, 108, 105, 115, 116, 58, 32, 76, 105, 115, 116, 41, 32, 123, 13, 10],
  [9, 13, 10],
  [9, 115, 32, 61, 32, 34, 91, 34, 59, 13, 10],
  [9, 105, 32, 61, 32, 48, 59, 13, 10],
  [9, 119, 104, 105, 108, 101, 32, 105, 32, 60, 32, 99, 111, 117, 110, 116, 40, 108, 105, 115, 116, 41, 58, 32, 123, 13, 10],
  [9, 9, 115, 32, 61, 32, 99, 97, 116, 40, 115, 44, 32, 116, 111, 83, 116, 114, 105, 110, 103, 40, 108, 105, 115, 116, 91, 105, 93, 41, 41, 59, 13, 10],
  [9, 9, 105, 32, 61, 32, 105, 43, 49, 59, 13, 10],
  [9, 9, 105, 102, 32, 105, 32, 60, 32, 99, 111, 117, 110, 116, 40, 108, 105, 115, 116, 41, 58, 13, 10],
  [9, 9, 9, 115, 32, 32, 61, 32, 99, 97, 116, 40, 115, 44, 32, 34, 44, 32, 34, 41, 59, 13, 10],
  [9, 125, 13, 10],
  [9, 115, 32, 61, 32, 99, 97, 116, 40, 115, 44, 32, 34, 93, 34, 41, 59, 13, 10],
  [9, 114, 101, 116, 117, 114, 110, 32, 115, 59, 13, 10],
  [125, 13, 10],
  [13, 10],
  [102, 117, 110, 32, 115, 116, 114, 105, 110, 103, 70, 114, 111, 109, 77, 97, 112, 40, 109, 97, 112, 58, 32, 77, 97, 112, 44, 32, 99, 97, 110, 95, 117, 115, 101, 95, 109, 101, 116, 104, 111, 100, 61, 116, 114, 117, 101, 41, 32, 123, 13, 10],
  [9, 115, 32, 61, 32, 110, 111, 110, 101, 59, 32, 35, 32, 82, 101, 115, 117, 108, 116, 13, 10],
  [9, 104, 97, 115, 95, 109, 101, 116, 104, 111, 100, 32, 61, 32, 105, 115, 116, 121, 112, 101, 111, 102, 40, 67, 97, 108, 108, 97, 98, 108, 101, 44, 32, 109, 97, 112, 46, 116, 111, 83, 116, 114, 105, 110, 103, 41, 59, 13, 10],
  [9, 105, 102, 32, 99, 97, 110, 95, 117, 115, 101, 95, 109, 101, 116, 104, 111, 100, 32, 97, 110, 100, 32, 104, 97, 115, 95, 109, 101, 116, 104, 111, 100, 58, 13, 10],
  [9, 9, 115, 32, 61, 32, 109, 97, 112, 45, 62, 116, 111, 83, 116, 114, 105, 110, 103, 40, 41, 59, 13, 10],
  [9, 101, 108, 115, 101, 32, 123, 13, 10],
  [9, 9, 115, 32, 61, 32, 34, 123, 34, 59, 13, 10],
  [9, 9, 105, 32, 61, 32, 48, 59, 13, 10],
  [9, 9, 107, 101, 121, 115, 32, 61, 32, 107, 101, 121, 115, 111, 102, 40, 109, 97, 112, 41, 59, 13, 10],
  [9, 9, 119, 104, 105, 108, 101, 32, 105, 32, 60, 32, 99, 111, 117, 110, 116, 40, 107, 101, 121, 115, 41, 58, 32, 123, 13, 10],
  [9, 9, 9, 115, 32, 61, 32, 99, 97, 116, 40, 115, 44, 32, 116, 111, 83, 116, 114, 105, 110, 103, 40, 107, 101, 121, 115, 91, 105, 93, 41, 44, 32, 34, 58, 32, 34, 44, 32, 116, 111, 83, 116, 114, 105, 110, 103, 40, 109, 97, 112, 91, 107, 101, 121, 115, 91, 105, 93, 93, 41, 41, 59, 13, 10],
  [9, 9, 9, 105, 32, 61, 32, 105, 43, 49, 59, 13, 10],
  [9, 9, 9, 105, 102, 32, 105, 32, 60, 32, 99, 111, 117, 110, 116, 40, 107, 101, 121, 115, 41, 58, 13, 10],
  [9, 9, 9, 9, 115, 32, 61, 32, 99, 97, 116, 40, 115, 44, 32, 34, 44, 32, 34, 41, 59, 32, 13, 10],
  [9, 9, 125, 13, 10],
  [9, 9, 115, 32, 61, 32, 99, 97, 116, 40, 115, 44, 32, 34, 125, 34, 41, 59, 13, 10],
  [9, 125, 13, 10],
  [9, 114, 101, 116, 117, 114, 110, 32, 115, 59, 13, 10],
  [125, 13, 10],
  [13, 10],
  [102, 117, 110, 32, 71, 101, 110, 101, 114, 105, 99, 73, 116, 101, 114, 97, 116, 111, 114, 40, 84, 41, 32, 114, 101, 116, 117, 114, 110, 32, 123, 13, 10],
  [9, 115, 101, 116, 32, 58, 32, 84, 44, 13, 10],
  [9, 107, 101, 121, 115, 32, 58, 32, 76, 105, 115, 116, 44, 13, 10],
  [9, 105, 110, 100, 101, 120, 58, 32, 63, 105, 110, 116, 44, 13, 10],
  [9, 110, 101, 120, 116, 32, 58, 32, 67, 97, 108, 108, 97, 98, 108, 101, 13, 10],
  [125, 59, 13, 10],
  [13, 10],
  [102, 117, 110, 32, 109, 97, 107, 101, 71, 101, 110, 101, 114, 105, 99, 73, 116, 101, 114, 97, 116, 111, 114, 40, 115, 101, 116, 58, 32, 67, 111, 108, 108, 101, 99, 116, 105, 111, 110, 41, 32, 114, 101, 116, 117, 114, 110, 32, 123, 13, 10],
  [9, 115, 101, 116, 32, 32, 58, 32, 115, 101, 116, 44, 13, 10],
  [9, 107, 101, 121, 115, 32, 58, 32, 107, 101, 121, 115, 111, 102, 40, 115, 101, 116, 41, 44, 13, 10],
  [9, 105, 110, 100, 101, 120, 58, 32, 110, 111, 110, 101, 44, 13, 10],
  [9, 102, 117, 110, 32, 110, 101, 120, 116, 40, 105, 116, 101, 114, 58, 32, 71, 101, 110, 101, 114, 105, 99, 73, 116, 101, 114, 97, 116, 111, 114, 40, 116, 121, 112, 101, 40, 115, 101, 116, 41, 41, 41, 32, 123, 13, 10],
  [9, 9, 9, 13, 10],
  [9, 9, 105, 110, 100, 101, 120, 32, 61, 32, 105, 116, 101, 114, 46, 105, 110, 100, 101, 120, 59, 13, 10],
  [9, 9, 9, 13, 10],
  [9, 9, 105, 102, 32, 105, 110, 100, 101, 120, 32, 61, 61, 32, 110, 111, 110, 101, 58, 13, 10],
  [9, 9, 9, 105, 110, 100, 101, 120, 32, 61, 32, 48, 59, 13, 10],
  [9, 9, 101, 108, 115, 101, 32, 123, 13, 10],
  [9, 9, 9, 105, 102, 32, 105, 110, 100, 101, 120, 32, 60, 32, 99, 111, 117, 110, 116, 40, 105, 116, 101, 114, 46, 107, 101, 121, 115, 41, 58, 13, 10],
  [9, 9, 9, 9, 105, 110, 100, 101, 120, 32, 61, 32, 105, 110, 100, 101, 120, 43, 49, 59, 13, 10],
  [9, 9, 125, 13, 10],
  [13, 10],
  [9, 9, 105, 102, 32, 105, 110, 100, 101, 120, 32, 61, 61, 32, 99, 111, 117, 110, 116, 40, 105, 116, 101, 114, 46, 107, 101, 121, 115, 41, 58, 13, 10],
  [9, 9, 9, 114, 101, 116, 117, 114, 110, 32, 110, 111, 110, 101, 59, 13, 10],
  [13, 10],
  [9, 9, 105, 116, 101, 114, 46, 105, 110, 100, 101, 120, 32, 61, 32, 105, 110, 100, 101, 120, 59, 13, 10],
  [9, 9, 107, 101, 121, 32, 61, 32, 105, 116, 101, 114, 46, 107, 101, 121, 115, 91, 105, 110, 100, 101, 120, 93, 59, 13, 10],
  [9, 9, 118, 97, 108, 32, 61, 32, 105, 116, 101, 114, 46, 115, 101, 116, 91, 107, 101, 121, 93, 59, 13, 10],
  [9, 9, 114, 101, 116, 117, 114, 110, 32, 118, 97, 108, 44, 32, 107, 101, 121, 44, 32, 105, 110, 100, 101, 120, 59, 13, 10],
  [9, 125, 13, 10],
  [125, 59, 13, 10],
  [13, 10],
  [114, 101, 116, 117, 114, 110, 32, 123, 13, 10],
  [13, 10],
  [9, 70, 117, 110, 99, 58, 32, 70, 117, 110, 99, 44, 13, 10],
  [9, 78, 70, 117, 110, 99, 58, 32, 78, 70, 117, 110, 99, 44, 13, 10],
  [9, 78, 117, 109, 101, 114, 105, 99, 58, 32, 78, 117, 109, 101, 114, 105, 99, 44, 13, 10],
  [9, 67, 97, 108, 108, 97, 98, 108, 101, 58, 32, 67, 97, 108, 108, 97, 98, 108, 101, 44, 13, 10],
  [9, 67, 111, 108, 108, 101, 99, 116, 105, 111, 110, 58, 32, 67, 111, 108, 108, 101, 99, 116, 105, 111, 110, 44, 13, 10],
  [13, 10],
  [9, 102, 117, 110, 32, 109, 97, 107, 101, 73, 116, 101, 114, 97, 116, 111, 114, 40, 115, 101, 116, 58, 32, 67, 111, 108, 108, 101, 99, 116, 105, 111, 110, 44, 32, 99, 97, 110, 95, 117, 115, 101, 95, 109, 101, 116, 104, 111, 100, 61, 116, 114, 117, 101, 41, 32, 123, 13, 10],
  [9, 9, 105, 102, 32, 99, 97, 110, 95, 117, 115, 101, 95, 109, 101, 116, 104, 111, 100, 32, 97, 110, 100, 32, 116, 121, 112, 101, 40, 115, 101, 116, 41, 32, 61, 61, 32, 77, 97, 112, 32, 97, 110, 100, 32, 105, 115, 116, 121, 112, 101, 111, 102, 40, 67, 97, 108, 108, 97, 98, 108, 101, 44, 32, 115, 101, 116, 46, 105, 116, 101, 114, 41, 58, 13, 10],
  [9, 9, 9, 114, 101, 116, 117, 114, 110, 32, 115, 101, 116, 45, 62, 105, 116, 101, 114, 40, 41, 59, 13, 10],
  [9, 9, 114, 101, 116, 117, 114, 110, 32, 109, 97, 107, 101, 71, 101, 110, 101, 114, 105, 99, 73, 116, 101, 114, 97, 116, 111, 114, 40, 115, 101, 116, 41, 59, 13, 10],
  [9, 125, 13, 10],
  [13, 10],
  [9, 102, 117, 110, 32, 116, 111, 83, 116, 114, 105, 110, 103, 40, 118, 97, 108, 117, 101, 44, 32, 99, 97, 110, 95, 117, 115, 101, 95, 109, 101, 116, 104, 111, 100, 61, 116, 114, 117, 101, 41, 32, 123, 13, 10],
  [9, 9, 84, 32, 61, 32, 116, 121, 112, 101, 40, 118, 97, 108, 117, 101, 41, 59, 13, 10],
  [9, 9, 105, 102, 32, 84, 32, 61, 61, 32, 78, 111, 110, 101, 32, 58, 32, 114, 101, 116, 117, 114, 110, 32, 34, 110, 111, 110, 101, 34, 59, 13, 10],
  [9, 9, 105, 102, 32, 84, 32, 61, 61, 32, 105, 110, 116, 32, 32, 58, 32, 114, 101, 116, 117, 114, 110, 32, 115, 116, 114, 105, 110, 103, 70, 114, 111, 109, 73, 110, 116, 101, 103, 101, 114, 40, 118, 97, 108, 117, 101, 41, 59, 13, 10],
  [9, 9, 105, 102, 32, 84, 32, 61, 61, 32, 102, 108, 111, 97, 116, 58, 32, 114, 101, 116, 117, 114, 110, 32, 115, 116, 114, 105, 110, 103, 70, 114, 111, 109, 70, 108, 111, 97, 116, 105, 110, 103, 40, 118, 97, 108, 117, 101, 41, 59, 13, 10],
  [9, 9, 105, 102, 32, 84, 32, 61, 61, 32, 76, 105, 115, 116, 32, 58, 32, 114, 101, 116, 117, 114, 110, 32, 115, 116, 114, 105, 110, 103, 70, 114, 111, 109, 76, 105, 115, 116, 40, 118, 97, 108, 117, 101, 41, 59, 13, 10],
  [9, 9, 105, 102, 32, 84, 32, 61, 61, 32, 77, 97, 112, 32, 32, 58, 32, 114, 101, 116, 117, 114, 110, 32, 115, 116, 114, 105, 110, 103, 70, 114, 111, 109, 77, 97, 112, 40, 118, 97, 108, 117, 101, 44, 32, 99, 97, 110, 95, 117, 115, 101, 95, 109, 101, 116, 104, 111, 100, 41, 59, 13, 10],
  [9, 9, 105, 102, 32, 84, 32, 61, 61, 32, 84, 121, 112, 101, 32, 58, 32, 114, 101, 116, 117, 114, 110, 32, 116, 121, 112, 101, 110, 97, 109, 101, 40, 84, 41, 59, 13, 10],
  [9, 9, 105, 102, 32, 84, 32, 61, 61, 32, 70, 117, 110, 99, 32, 58, 32, 114, 101, 116, 117, 114, 110, 32, 34, 70, 117, 110, 99, 34, 59, 13, 10],
  [9, 9, 105, 102, 32, 84, 32, 61, 61, 32, 78, 70, 117, 110, 99, 58, 32, 114, 101, 116, 117, 114, 110, 32, 34, 78, 70, 117, 110, 99, 34, 59, 13, 10],
  [9, 9, 105, 102, 32, 84, 32, 61, 61, 32, 83, 116, 114, 105, 110, 103, 58, 32, 114, 101, 116, 117, 114, 110, 32, 118, 97, 108, 117, 101, 59, 13, 10],
  [9, 9, 101, 114, 114, 111, 114, 40, 99, 97, 116, 40, 34, 68, 111, 110, 39, 116, 32, 107, 110, 111, 119, 32, 104, 111, 119, 32, 116, 111, 32, 99, 111, 110, 118, 101, 114, 116, 32, 34, 44, 32, 116, 121, 112, 101, 110, 97, 109, 101, 40, 118, 97, 108, 117, 101, 41, 44, 32, 34, 32, 116, 111, 32, 97, 32, 115, 116, 114, 105, 110, 103, 34, 41, 41, 59, 13, 10],
  [9, 125, 13, 10],
  [13, 10],
  [9, 102, 117, 110, 32, 105, 110, 116, 101, 103, 101, 114, 70, 114, 111, 109, 68, 105, 103, 105, 116, 40, 99, 104, 97, 114, 58, 32, 83, 116, 114, 105, 110, 103, 41, 32, 123, 13, 10],
  [32, 32, 32, 32, 9, 114, 101, 115, 32, 61, 32, 111, 114, 100, 40, 99, 104, 97, 114, 41, 32, 45, 32, 111, 114, 100, 40, 39, 48, 39, 41, 59, 13, 10],
  [9, 32, 32, 32, 32, 105, 102, 32, 114, 101, 115, 32, 60, 32, 48, 32, 111, 114, 32, 114, 101, 115, 32, 62, 32, 57, 58, 13, 10],
  [32, 32, 32, 32, 9, 9, 101, 114, 114, 111, 114, 40, 34, 83, 116, 114, 105, 110, 103, 32, 105, 115, 110, 39, 116, 32, 97, 32, 100, 105, 103, 105, 116, 34, 41, 59, 13, 10],
  [32, 32, 32, 32, 9, 114, 101, 116, 117, 114, 110, 32, 114, 101, 115, 59, 13, 10],
  [9, 125, 13, 10],
  [13, 10],
  [9, 102, 117, 110, 32, 105, 115, 67, 97, 108, 108, 97, 98, 108, 101, 40, 120, 41, 13, 10],
  [9, 9, 114, 101, 116, 117, 114, 110, 32, 105, 115, 116, 121, 112, 101, 111, 102, 40, 67, 97, 108, 108, 97, 98, 108, 101, 44, 32, 120, 41, 59, 13, 10],
  [13, 10],
  [9, 102, 117, 110, 32, 97, 112, 112, 101, 110, 100, 40, 97, 114, 114, 97, 121, 58, 32, 76, 105, 115, 116, 44, 32, 105, 116, 101, 109, 41, 13, 10],
  [9, 9, 97, 114, 114, 97, 121, 91, 99, 111, 117, 110, 116, 40, 97, 114, 114, 97, 121, 41, 93, 32, 61, 32, 105, 116, 101, 109, 59, 13, 10],
  [13, 10],
  [9, 102, 117, 110, 32, 97, 98, 115, 40, 110, 58, 32, 78, 117, 109, 101, 114, 105, 99, 41, 32, 123, 13, 10],
  [9, 9, 105, 102, 32, 110, 32, 60, 32, 48, 58, 13, 10],
  [9, 9, 9, 114, 101, 116, 117, 114, 110, 32, 45, 110, 59, 13, 10],
  [9, 9, 114, 101, 116, 117, 114, 110, 32, 110, 59, 13, 10],
  [9, 125, 13, 10],
  [13, 10],
  [9, 102, 117, 110, 32, 109, 105, 110, 40, 120, 44, 32, 121, 41, 32, 123, 13, 10],
  [9, 32, 32, 32, 32, 105, 102, 32, 120, 32, 60, 32, 121, 58, 13, 10],
  [9, 32, 32, 32, 32, 32, 32, 32, 32, 114, 101, 116, 117, 114, 110, 32, 120, 59, 13, 10],
  [9, 32, 32, 32, 32, 114, 101, 116, 117, 114, 110, 32, 121, 59, 13, 10],
  [9, 125, 13, 10],
  [13, 10],
  [9, 102, 117, 110, 32, 109, 97, 120, 40, 120, 44, 32, 121, 41, 32, 123, 13, 10],
  [9, 32, 32, 32, 32, 105, 102, 32, 120, 32, 62, 32, 121, 58, 13, 10],
  [9, 32, 32, 32, 32, 32, 32, 32, 32, 114, 101, 116, 117, 114, 110, 32, 120, 59, 13, 10],
  [9, 32, 32, 32, 32, 114, 101, 116, 117, 114, 110, 32, 121, 59, 13, 10],
  [9, 125, 13, 10],
  [125, 59, 13, 10]]

/-- The bytes of `start.noja`. -/
def text : List UInt8 := lines.flatten

/-- `strtod` on the two floating point literals of the text: 1.0 and 0.00000001. -/
def literal (t : List UInt8) : Option (BitVec 64) :=
  if t = [49, 46, 48] then some 0x3FF0000000000000#64
  else if t = [48, 46, 48, 48, 48, 48, 48, 48, 48, 49] then some 0x3E45798EE2308C3A#64
  else none

/-- The parser accepts `start.noja`, and the tree is `prog`. -/
theorem parse_text : (Parse.parse literal 0 text >>= fun r => .ok (r.elab false)) = .ok (some prog) := by
  decide +kernel

end Start

end Noja.VM
