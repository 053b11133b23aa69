import Verif.VM.Names

/-!
# The program `start.noja` as a syntax tree

`Verif.VM.Start.Text` proves that this is what the parser makes of the text of
`src/lib/builtins/start.noja`.
-/

set_option linter.unusedVariables false

namespace Noja.VM.Start

def stmts : List Stmt → Stmts
  | [] => .nil
  | s :: ss => .cons s (stmts ss)

def F.dummy : FunDef :=
  .mk .nil
    (.comp .nil)

def F.stringFromDigit : FunDef :=
  .mk (.cons N.digit .no (.yes (.ident N.int)) .nil)
    (.comp (stmts [
      (.expr (.call (.fn (.ident N.assert) (.cons (.and (.bin .geq (.ident N.digit) (.int 0)) (.bin .leq (.ident N.digit) (.int 9))) .nil)))),
      (.ret (.cons (.call (.fn (.ident N.chr) (.cons (.bin .add (.call (.fn (.ident N.ord) (.cons (.str [48]) .nil))) (.ident N.digit)) .nil))) .nil))]))

def F.getIntegerMagnitude : FunDef :=
  .mk (.cons N.n .no (.yes (.ident N.int)) .nil)
    (.comp (stmts [
      (.expr (.call (.fn (.ident N.assert) (.cons (.bin .geq (.ident N.n) (.int 0)) .nil)))),
      (.expr (.assign (.var N.magn) (.int 0))),
      (.expr (.assign (.var N.powr) (.int 1))),
      (.while (.bin .geq (.ident N.n) (.bin .mul (.ident N.powr) (.int 10)))
        (.comp (stmts [
          (.expr (.assign (.var N.powr) (.bin .mul (.int 10) (.ident N.powr)))),
          (.expr (.assign (.var N.magn) (.bin .add (.int 1) (.ident N.magn))))]))),
      (.ret (.cons (.ident N.magn) (.cons (.ident N.powr) .nil)))]))

def F.stringFromInteger : FunDef :=
  .mk (.cons N.n .no (.yes (.ident N.int)) .nil)
    (.comp (stmts [
      (.expr (.assign (.var N.negative) (.bin .lss (.ident N.n) (.int 0)))),
      (.expr (.massign (.var N.underscore) (.one (.var N.power)) (.fn (.ident N.getIntegerMagnitude) (.cons (.ident N.n) .nil)))),
      (.expr (.assign (.var N.temp) (.call (.fn (.ident N.abs) (.cons (.ident N.n) .nil))))),
      (.expr (.assign (.var N.text) (.str []))),
      (.while (.bin .geq (.ident N.power) (.int 1))
        (.comp (stmts [
          (.expr (.assign (.var N.digit) (.bin .div (.ident N.temp) (.ident N.power)))),
          (.expr (.assign (.var N.temp) (.bin .mod (.ident N.temp) (.ident N.power)))),
          (.expr (.assign (.var N.text) (.call (.fn (.ident N.cat) (.cons (.call (.fn (.ident N.stringFromDigit) (.cons (.ident N.digit) .nil))) (.cons (.ident N.text) .nil)))))),
          (.expr (.assign (.var N.power) (.bin .div (.ident N.power) (.int 10))))]))),
      (.ifOnly (.ident N.negative) (.expr (.assign (.var N.text) (.call (.fn (.ident N.cat) (.cons (.ident N.text) (.cons (.str [45]) .nil))))))),
      (.ret (.cons (.ident N.text) .nil))]))

def F.stringFromFloating : FunDef :=
  .mk (.cons N.max_decimals (.yes (.int 2)) (.yes (.ident N.int)) (.cons N.f .no (.yes (.ident N.float)) .nil))
    (.comp (stmts [
      (.expr (.assign (.var N.epsilon) (.float 4487126258331716666#64))),
      (.expr (.assign (.var N.asint) (.call (.fn (.select (.ident N.math) (.str N.floor)) (.cons (.ident N.f) .nil))))),
      (.expr (.assign (.var N.text) (.call (.fn (.ident N.stringFromInteger) (.cons (.ident N.asint) .nil))))),
      (.expr (.assign (.var N.text) (.call (.fn (.ident N.cat) (.cons (.str [46]) (.cons (.ident N.text) .nil)))))),
      (.expr (.assign (.var N.magn) (.float 4607182418800017408#64))),
      (.expr (.assign (.var N.temp) (.bin .sub (.ident N.f) (.ident N.asint)))),
      (.expr (.assign (.var N.i) (.int 0))),
      (.doWhile
        (.comp (stmts [
          (.expr (.assign (.var N.magn) (.bin .div (.ident N.magn) (.int 10)))),
          (.expr (.assign (.var N.digit) (.call (.fn (.select (.ident N.math) (.str N.floor)) (.cons (.bin .div (.ident N.temp) (.ident N.magn)) .nil))))),
          (.expr (.assign (.var N.text) (.call (.fn (.ident N.cat) (.cons (.call (.fn (.ident N.stringFromDigit) (.cons (.ident N.digit) .nil))) (.cons (.ident N.text) .nil)))))),
          (.expr (.assign (.var N.temp) (.bin .sub (.ident N.temp) (.bin .mul (.ident N.magn) (.ident N.digit))))),
          (.expr (.assign (.var N.i) (.bin .add (.ident N.i) (.int 1))))]))
        (.and (.bin .grt (.ident N.temp) (.ident N.epsilon)) (.bin .lss (.ident N.i) (.ident N.max_decimals)))),
      (.ret (.cons (.ident N.text) .nil))]))

def F.stringFromNumeric : FunDef :=
  .mk (.cons N.num .no (.yes (.ident N.Numeric)) .nil)
    (.comp (stmts [
      (.ifOnly (.bin .eql (.call (.fn (.ident N.type) (.cons (.ident N.num) .nil))) (.ident N.int)) (.ret (.cons (.call (.fn (.ident N.stringFromInteger) (.cons (.ident N.num) .nil))) .nil))),
      (.ret (.cons (.call (.fn (.ident N.stringFromFloating) (.cons (.ident N.num) .nil))) .nil))]))

def F.floatFromInteger : FunDef :=
  .mk (.cons N.n .no (.yes (.ident N.int)) .nil)
    (.ret (.cons (.bin .mul (.float 4607182418800017408#64) (.ident N.n)) .nil))

def F.stringFromList : FunDef :=
  .mk (.cons N.list .no (.yes (.ident N.List)) .nil)
    (.comp (stmts [
      (.expr (.assign (.var N.s) (.str [91]))),
      (.expr (.assign (.var N.i) (.int 0))),
      (.while (.bin .lss (.ident N.i) (.call (.fn (.ident N.count) (.cons (.ident N.list) .nil))))
        (.comp (stmts [
          (.expr (.assign (.var N.s) (.call (.fn (.ident N.cat) (.cons (.call (.fn (.ident N.toString) (.cons (.select (.ident N.list) (.ident N.i)) .nil))) (.cons (.ident N.s) .nil)))))),
          (.expr (.assign (.var N.i) (.bin .add (.ident N.i) (.int 1)))),
          (.ifOnly (.bin .lss (.ident N.i) (.call (.fn (.ident N.count) (.cons (.ident N.list) .nil)))) (.expr (.assign (.var N.s) (.call (.fn (.ident N.cat) (.cons (.str [44, 32]) (.cons (.ident N.s) .nil)))))))]))),
      (.expr (.assign (.var N.s) (.call (.fn (.ident N.cat) (.cons (.str [93]) (.cons (.ident N.s) .nil)))))),
      (.ret (.cons (.ident N.s) .nil))]))

def F.stringFromMap : FunDef :=
  .mk (.cons N.can_use_method (.yes .tru) .no (.cons N.map .no (.yes (.ident N.Map)) .nil))
    (.comp (stmts [
      (.expr (.assign (.var N.s) .none)),
      (.expr (.assign (.var N.has_method) (.call (.fn (.ident N.istypeof) (.cons (.select (.ident N.map) (.str N.toString)) (.cons (.ident N.Callable) .nil)))))),
      (.ifElse (.and (.ident N.can_use_method) (.ident N.has_method))
        (.expr (.assign (.var N.s) (.call (.method (.ident N.map) (.str N.toString) .nil))))
        (.comp (stmts [
          (.expr (.assign (.var N.s) (.str [123]))),
          (.expr (.assign (.var N.i) (.int 0))),
          (.expr (.assign (.var N.keys) (.call (.fn (.ident N.keysof) (.cons (.ident N.map) .nil))))),
          (.while (.bin .lss (.ident N.i) (.call (.fn (.ident N.count) (.cons (.ident N.keys) .nil))))
            (.comp (stmts [
              (.expr (.assign (.var N.s) (.call (.fn (.ident N.cat) (.cons (.call (.fn (.ident N.toString) (.cons (.select (.ident N.map) (.select (.ident N.keys) (.ident N.i))) .nil))) (.cons (.str [58, 32]) (.cons (.call (.fn (.ident N.toString) (.cons (.select (.ident N.keys) (.ident N.i)) .nil))) (.cons (.ident N.s) .nil)))))))),
              (.expr (.assign (.var N.i) (.bin .add (.ident N.i) (.int 1)))),
              (.ifOnly (.bin .lss (.ident N.i) (.call (.fn (.ident N.count) (.cons (.ident N.keys) .nil)))) (.expr (.assign (.var N.s) (.call (.fn (.ident N.cat) (.cons (.str [44, 32]) (.cons (.ident N.s) .nil)))))))]))),
          (.expr (.assign (.var N.s) (.call (.fn (.ident N.cat) (.cons (.str [125]) (.cons (.ident N.s) .nil))))))]))),
      (.ret (.cons (.ident N.s) .nil))]))

def F.GenericIterator : FunDef :=
  .mk (.cons N.T .no .no .nil)
    (.ret (.cons (.map (.cons (.str N.set) (.ident N.T)
      (.cons (.str N.keys) (.ident N.List)
      (.cons (.str N.index) (.un .nlb (.ident N.int))
      (.cons (.str N.next) (.ident N.Callable)
      .nil))))) .nil))

def F.next : FunDef :=
  .mk (.cons N.iter .no (.yes (.call (.fn (.ident N.GenericIterator) (.cons (.call (.fn (.ident N.type) (.cons (.ident N.set) .nil))) .nil)))) .nil)
    (.comp (stmts [
      (.expr (.assign (.var N.index) (.select (.ident N.iter) (.str N.index)))),
      (.ifElse (.bin .eql (.ident N.index) .none)
        (.expr (.assign (.var N.index) (.int 0)))
        (.comp (stmts [
          (.ifOnly (.bin .lss (.ident N.index) (.call (.fn (.ident N.count) (.cons (.select (.ident N.iter) (.str N.keys)) .nil)))) (.expr (.assign (.var N.index) (.bin .add (.ident N.index) (.int 1)))))]))),
      (.ifOnly (.bin .eql (.ident N.index) (.call (.fn (.ident N.count) (.cons (.select (.ident N.iter) (.str N.keys)) .nil)))) (.ret (.cons .none .nil))),
      (.expr (.assign (.sel (.ident N.iter) (.str N.index)) (.ident N.index))),
      (.expr (.assign (.var N.key) (.select (.select (.ident N.iter) (.str N.keys)) (.ident N.index)))),
      (.expr (.assign (.var N.val) (.select (.select (.ident N.iter) (.str N.set)) (.ident N.key)))),
      (.ret (.cons (.ident N.val) (.cons (.ident N.key) (.cons (.ident N.index) .nil))))]))

def F.makeGenericIterator : FunDef :=
  .mk (.cons N.set .no (.yes (.ident N.Collection)) .nil)
    (.ret (.cons (.map (.cons (.str N.set) (.ident N.set)
      (.cons (.str N.keys) (.call (.fn (.ident N.keysof) (.cons (.ident N.set) .nil)))
      (.cons (.str N.index) .none
      (.cons (.str N.next) (.func N.anon F.next)
      .nil))))) .nil))

def F.makeIterator : FunDef :=
  .mk (.cons N.can_use_method (.yes .tru) .no (.cons N.set .no (.yes (.ident N.Collection)) .nil))
    (.comp (stmts [
      (.ifOnly (.and (.and (.ident N.can_use_method) (.bin .eql (.call (.fn (.ident N.type) (.cons (.ident N.set) .nil))) (.ident N.Map))) (.call (.fn (.ident N.istypeof) (.cons (.select (.ident N.set) (.str N.iter)) (.cons (.ident N.Callable) .nil))))) (.ret (.cons (.call (.method (.ident N.set) (.str N.iter) .nil)) .nil))),
      (.ret (.cons (.call (.fn (.ident N.makeGenericIterator) (.cons (.ident N.set) .nil))) .nil))]))

def F.toString : FunDef :=
  .mk (.cons N.can_use_method (.yes .tru) .no (.cons N.value .no .no .nil))
    (.comp (stmts [
      (.expr (.assign (.var N.T) (.call (.fn (.ident N.type) (.cons (.ident N.value) .nil))))),
      (.ifOnly (.bin .eql (.ident N.T) (.ident N.None)) (.ret (.cons (.str N.none) .nil))),
      (.ifOnly (.bin .eql (.ident N.T) (.ident N.int)) (.ret (.cons (.call (.fn (.ident N.stringFromInteger) (.cons (.ident N.value) .nil))) .nil))),
      (.ifOnly (.bin .eql (.ident N.T) (.ident N.float)) (.ret (.cons (.call (.fn (.ident N.stringFromFloating) (.cons (.ident N.value) .nil))) .nil))),
      (.ifOnly (.bin .eql (.ident N.T) (.ident N.List)) (.ret (.cons (.call (.fn (.ident N.stringFromList) (.cons (.ident N.value) .nil))) .nil))),
      (.ifOnly (.bin .eql (.ident N.T) (.ident N.Map)) (.ret (.cons (.call (.fn (.ident N.stringFromMap) (.cons (.ident N.can_use_method) (.cons (.ident N.value) .nil)))) .nil))),
      (.ifOnly (.bin .eql (.ident N.T) (.ident N.Type)) (.ret (.cons (.call (.fn (.ident N.typename) (.cons (.ident N.T) .nil))) .nil))),
      (.ifOnly (.bin .eql (.ident N.T) (.ident N.Func)) (.ret (.cons (.str N.Func) .nil))),
      (.ifOnly (.bin .eql (.ident N.T) (.ident N.NFunc)) (.ret (.cons (.str N.NFunc) .nil))),
      (.ifOnly (.bin .eql (.ident N.T) (.ident N.String)) (.ret (.cons (.ident N.value) .nil))),
      (.expr (.call (.fn (.ident N.error) (.cons (.call (.fn (.ident N.cat) (.cons (.str [32, 116, 111, 32, 97, 32, 115, 116, 114, 105, 110, 103]) (.cons (.call (.fn (.ident N.typename) (.cons (.ident N.value) .nil))) (.cons (.str [68, 111, 110, 39, 116, 32, 107, 110, 111, 119, 32, 104, 111, 119, 32, 116, 111, 32, 99, 111, 110, 118, 101, 114, 116, 32]) .nil))))) .nil))))]))

def F.integerFromDigit : FunDef :=
  .mk (.cons N.char .no (.yes (.ident N.String)) .nil)
    (.comp (stmts [
      (.expr (.assign (.var N.res) (.bin .sub (.call (.fn (.ident N.ord) (.cons (.ident N.char) .nil))) (.call (.fn (.ident N.ord) (.cons (.str [48]) .nil)))))),
      (.ifOnly (.or (.bin .lss (.ident N.res) (.int 0)) (.bin .grt (.ident N.res) (.int 9))) (.expr (.call (.fn (.ident N.error) (.cons (.str [83, 116, 114, 105, 110, 103, 32, 105, 115, 110, 39, 116, 32, 97, 32, 100, 105, 103, 105, 116]) .nil))))),
      (.ret (.cons (.ident N.res) .nil))]))

def F.isCallable : FunDef :=
  .mk (.cons N.x .no .no .nil)
    (.ret (.cons (.call (.fn (.ident N.istypeof) (.cons (.ident N.x) (.cons (.ident N.Callable) .nil)))) .nil))

def F.append : FunDef :=
  .mk (.cons N.item .no .no (.cons N.array .no (.yes (.ident N.List)) .nil))
    (.expr (.assign (.sel (.ident N.array) (.call (.fn (.ident N.count) (.cons (.ident N.array) .nil)))) (.ident N.item)))

def F.abs : FunDef :=
  .mk (.cons N.n .no (.yes (.ident N.Numeric)) .nil)
    (.comp (stmts [
      (.ifOnly (.bin .lss (.ident N.n) (.int 0)) (.ret (.cons (.un .neg (.ident N.n)) .nil))),
      (.ret (.cons (.ident N.n) .nil))]))

def F.min : FunDef :=
  .mk (.cons N.y .no .no (.cons N.x .no .no .nil))
    (.comp (stmts [
      (.ifOnly (.bin .lss (.ident N.x) (.ident N.y)) (.ret (.cons (.ident N.x) .nil))),
      (.ret (.cons (.ident N.y) .nil))]))

def F.max : FunDef :=
  .mk (.cons N.y .no .no (.cons N.x .no .no .nil))
    (.comp (stmts [
      (.ifOnly (.bin .grt (.ident N.x) (.ident N.y)) (.ret (.cons (.ident N.x) .nil))),
      (.ret (.cons (.ident N.y) .nil))]))

def prog : Stmts := stmts [
  (.func N.dummy F.dummy),
  (.expr (.assign (.var N.Func) (.call (.fn (.ident N.type) (.cons (.ident N.dummy) .nil))))),
  (.expr (.assign (.var N.NFunc) (.call (.fn (.ident N.type) (.cons (.ident N.print) .nil))))),
  (.expr (.assign (.var N.Numeric) (.bin .sum (.ident N.int) (.ident N.float)))),
  (.expr (.assign (.var N.Callable) (.bin .sum (.ident N.Func) (.ident N.NFunc)))),
  (.expr (.assign (.var N.Collection) (.bin .sum (.ident N.List) (.ident N.Map)))),
  (.expr (.assign (.var N.chr) (.select (.ident N.string) (.str N.chr)))),
  (.expr (.assign (.var N.ord) (.select (.ident N.string) (.str N.ord)))),
  (.expr (.assign (.var N.cat) (.select (.ident N.string) (.str N.cat)))),
  (.func N.stringFromDigit F.stringFromDigit),
  (.func N.getIntegerMagnitude F.getIntegerMagnitude),
  (.func N.stringFromInteger F.stringFromInteger),
  (.func N.stringFromFloating F.stringFromFloating),
  (.func N.stringFromNumeric F.stringFromNumeric),
  (.func N.floatFromInteger F.floatFromInteger),
  (.func N.stringFromList F.stringFromList),
  (.func N.stringFromMap F.stringFromMap),
  (.func N.GenericIterator F.GenericIterator),
  (.func N.makeGenericIterator F.makeGenericIterator),
  (.ret (.cons (.map (.cons (.str N.Func) (.ident N.Func)
    (.cons (.str N.NFunc) (.ident N.NFunc)
    (.cons (.str N.Numeric) (.ident N.Numeric)
    (.cons (.str N.Callable) (.ident N.Callable)
    (.cons (.str N.Collection) (.ident N.Collection)
    (.cons (.str N.makeIterator) (.func N.anon F.makeIterator)
    (.cons (.str N.toString) (.func N.anon F.toString)
    (.cons (.str N.integerFromDigit) (.func N.anon F.integerFromDigit)
    (.cons (.str N.isCallable) (.func N.anon F.isCallable)
    (.cons (.str N.append) (.func N.anon F.append)
    (.cons (.str N.abs) (.func N.anon F.abs)
    (.cons (.str N.min) (.func N.anon F.min)
    (.cons (.str N.max) (.func N.anon F.max)
    .nil)))))))))))))) .nil))]

end Noja.VM.Start
