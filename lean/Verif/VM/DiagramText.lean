import Verif.VM.Diagram
import Verif.VM.Trace
import Verif.Asm.Dump
import Verif.Parse.Printable

/-!
# The text of a diagram (C110)

compiler/graphviz.c and diagram.c.  `Verif.VM.Diagram` has the labels and the arrows (C89); here is the text, in the language DOT, in which
they are written, and what a reader of that language gets out of it.

Simplifications: what `%g` writes is a parameter; memory exhaustion is left out; the two buffers are lists, which is what they are by
`C110_buffer`.
-/

set_option linter.unusedVariables false
set_option linter.unusedSimpArgs false

namespace Noja.VM.Diagram

open Noja (Exec toI32)
open Noja.Asm (decimal isDigit dec_digits lld)
open Noja.VM.Trace (Digits append_cons_inj Digits.not_mem)
open Noja.Parse (bytes OkE OkC OkEs OkPs OkF OkParams OkO OkS OkSs nameOk isField)

/-! ## Model -/

section
variable (fmt : BitVec 64 → List UInt8)

/-- graphviz.c:54-58 `Buffer`: the block and how much of it is used. -/
structure Buffer where
  data : List UInt8
  used : Nat
  deriving DecidableEq

/-- graphviz.c:65-70 `Buffer_Init` -/
def Buffer.init : Buffer := ⟨[], 0⟩

/-- graphviz.c:91-113 `Buffer_EnsureFreeSpace`; `junk` is what is in the new part of the block. -/
def Buffer.ensure (b : Buffer) (num : Nat) (junk : UInt8) : Buffer :=
  if b.used + num > b.data.length then
    let newsize := b.data.length * 2
    let newsize := if newsize < b.data.length + num then b.data.length + num else newsize
    { b with data := b.data ++ List.replicate (newsize - b.data.length) junk }
  else b

/-- graphviz.c:115-137 `Buffer_VAppendF`: `t` is what is printed.  `vsnprintf` writes as much as there is room for, and a zero. -/
def Buffer.append (b : Buffer) (t : List UInt8) (junk : UInt8) : Exec Buffer :=
  let b := b.ensure (t.length + 1) junk
  if b.used ≤ b.data.length then
    let room := b.data.length - b.used
    let w := if room = 0 then [] else t.take (room - 1) ++ [0]
    .ok ⟨b.data.take b.used ++ w ++ b.data.drop (b.used + w.length), b.used + t.length⟩
  else .ub

/-- graphviz.c:170-177: what is copied out of a buffer. -/
def Buffer.contents (b : Buffer) : Exec (List UInt8) := if b.used ≤ b.data.length then .ok (b.data.take b.used) else .ub

/-- graphviz.c:298, 307, 314, 318-339, 346: the characters of a label. -/
def labelText : Label → List UInt8
  | .word w => bytes w
  | .name n => n
  | .num v => lld v
  | .float b => fmt b
  | .text s => s

/-- graphviz.c:205-208 `generateName` -/
def nodeName (n : Nat) : List UInt8 := bytes "node_" ++ Asm.dec n

/-- `"\t%s [label=\"%s\"];\n"` -/
def headLine (d : Nat × Label) : List UInt8 :=
  bytes "\t" ++ nodeName d.1 ++ bytes " [label=\"" ++ labelText fmt d.2 ++ bytes "\"];\n"

/-- `"\t%s -> %s;\n"` -/
def bodyLine (a : Nat × Nat) : List UInt8 := bytes "\t" ++ nodeName a.1 ++ bytes " -> " ++ nodeName a.2 ++ bytes ";\n"

/-- graphviz.c:524-544 `graphviz` and graphviz.c:161-182 `GraphViz_Complete` -/
def graphText (g : GV) : List UInt8 :=
  (bytes "digraph G {\n" ++ g.head.flatMap (headLine fmt) ++ bytes "\n") ++ (g.body.flatMap bodyLine ++ bytes "}\n")

/-- diagram.c:8-35 `diagramSourceAST`.  An error of the parser is one of the diagram. -/
def drawText (flt : List UInt8 → Option (BitVec 64)) (past : UInt8) (src : List UInt8) : Exec (List UInt8) := do
  let root ← Parse.parse flt past src
  let g ← diagram root
  .ok (graphText fmt g)
end

/-! ## Graphs in DOT -/

/-- The characters between two quotes: no quote but after a backslash. -/
inductive Quoted : List UInt8 → Prop
  | nil : Quoted []
  | char {c : UInt8} {s : List UInt8} : c ≠ 34 → c ≠ 92 → Quoted s → Quoted (c :: s)
  | pair {c : UInt8} {s : List UInt8} : Quoted s → Quoted (92 :: c :: s)

inductive Item where
  | decl (n : Nat) (label : List UInt8)
  | arrow (a b : Nat)
  deriving DecidableEq

/-- The statements of a graph: `node_1 [label="…"];` and `node_1 -> node_2;`, and blanks anywhere between them. -/
inductive Items : List Item → List UInt8 → Prop
  | stop : Items [] (125 :: [10])
  | blank {c : UInt8} {is : List Item} {t : List UInt8} : c = 9 ∨ c = 10 ∨ c = 32 → Items is t → Items is (c :: t)
  | decl {n : Nat} {ds s t : List UInt8} {is : List Item} : Digits n ds → Quoted s → Items is t →
      Items (.decl n s :: is) (bytes "node_" ++ (ds ++ (bytes " [label=\"" ++ (s ++ (bytes "\"];" ++ t)))))
  | arrow {a b : Nat} {as bs t : List UInt8} {is : List Item} : Digits a as → Digits b bs → Items is t →
      Items (.arrow a b :: is) (bytes "node_" ++ (as ++ (bytes " -> node_" ++ (bs ++ (bytes ";" ++ t)))))

/-- `digraph G { … }` -/
def Dot (is : List Item) (t : List UInt8) : Prop := ∃ u, t = bytes "digraph G {" ++ u ∧ Items is u

/-- The label of a node: the last one that it is given. -/
def labelOf (n : Nat) : List Item → Option (List UInt8)
  | [] => none
  | .decl m s :: is =>
    match labelOf n is with
    | some x => some x
    | none => if m = n then some s else none
  | .arrow _ _ :: is => labelOf n is

/-- The ends of the arrows of a node. -/
def ends (n : Nat) : List Item → List Nat
  | [] => []
  | .decl _ _ :: is => ends n is
  | .arrow a b :: is => if a = n then b :: ends n is else ends n is

/-- The ends of all arrows. -/
def allEnds : List Item → List Nat
  | [] => []
  | .decl _ _ :: is => allEnds is
  | .arrow _ b :: is => b :: allEnds is

/-- An integer as it is written. -/
def IntText (v : Int) (s : List UInt8) : Prop :=
  (0 ≤ v ∧ Digits v.toNat s) ∨ (v < 0 ∧ ∃ ds, s = 45 :: ds ∧ Digits (-v).toNat ds)

/-- What a label says. -/
inductive Says (fmt : BitVec 64 → List UInt8) : Label → List UInt8 → Prop
  | word (w : String) : Says fmt (.word w) (bytes w)
  | name (n : Name) : Says fmt (.name n) n
  | num {v : Int} {s : List UInt8} : IntText v s → Says fmt (.num v) s
  | float (b : BitVec 64) : Says fmt (.float b) (fmt b)
  | text (s : List UInt8) : Says fmt (.text s) s

mutual
/-- The tree that a reader sees below a node. -/
inductive Seen (fmt : BitVec 64 → List UInt8) (is : List Item) : Nat → Tree → Prop
  | node {n : Nat} {l : Label} {s : List UInt8} {ts : Trees} : labelOf n is = some s → Says fmt l s → SeenAll fmt is (ends n is) ts →
      Seen fmt is n (.node l ts)
inductive SeenAll (fmt : BitVec 64 → List UInt8) (is : List Item) : List Nat → Trees → Prop
  | nil : SeenAll fmt is [] .nil
  | cons {n : Nat} {ns : List Nat} {t : Tree} {ts : Trees} : Seen fmt is n t → SeenAll fmt is ns ts → SeenAll fmt is (n :: ns) (.cons t ts)
end

/-- Nothing else is in the graph: every node that is mentioned is the root or the end of one arrow, and has a label. -/
structure Whole (root : Nat) (is : List Item) : Prop where
  once : (root :: allEnds is).Nodup
  nodes : ∀ n s, Item.decl n s ∈ is → n ∈ root :: allEnds is
  ends : ∀ n ∈ root :: allEnds is, labelOf n is ≠ none
  starts : ∀ a b, Item.arrow a b ∈ is → a < b ∧ labelOf a is ≠ none

/-- What `%g` writes has no quotes, backslashes and NULs. -/
def Plain (fmt : BitVec 64 → List UInt8) : Prop := ∀ b, ∀ c ∈ fmt b, c ≠ 34 ∧ c ≠ 92 ∧ c ≠ 0

/-- The text is a graph in one way only, and a reader sees the tree of the program in it. -/
def Pictures (fmt : BitVec 64 → List UInt8) (root : RStmts) (t : List UInt8) : Prop :=
  0 ∉ t ∧ ∃ is ts, Dot is t ∧ (∀ is', Dot is' t → is' = is) ∧ STrees root ts ∧ Seen fmt is 1 (.node (.word "compound") ts) ∧ Whole 1 is

/-- **C110**: the text that is written for a program pictures its tree. -/
def C110Statement : Prop :=
  ∀ (fmt : BitVec 64 → List UInt8) (flt : List UInt8 → Option (BitVec 64)) (past : UInt8) (src : List UInt8) (root : RStmts), Plain fmt →
    Parse.parse flt past src = .ok root → ∃ t, drawText fmt flt past src = .ok t ∧ Pictures fmt root t

/-! ## Buffers -/

/-- What is in a buffer is what has been appended to it, in that order. -/
theorem C110_buffer (junk : UInt8) (ts : List (List UInt8)) : ∃ b, ts.foldlM (fun b t => b.append t junk) Buffer.init = .ok b ∧
    b.contents = .ok ts.flatten := by
  have step : ∀ (b : Buffer) (t c : List UInt8), b.used ≤ b.data.length → b.contents = .ok c →
      ∃ b', b.append t junk = .ok b' ∧ b'.used ≤ b'.data.length ∧ b'.contents = .ok (c ++ t) := fun b t c hb hc => by
    unfold Buffer.contents at hc
    rw [if_pos hb] at hc
    injection hc with hc
    obtain ⟨d, hd⟩ : ∃ d, b.ensure (t.length + 1) junk = ⟨b.data ++ d, b.used⟩ ∧ b.used + (t.length + 1) ≤ (b.data ++ d).length := by
      unfold Buffer.ensure
      by_cases h : b.used + (t.length + 1) > b.data.length
      · rw [if_pos h]
        refine ⟨_, rfl, ?_⟩
        rw [List.length_append, List.length_replicate]
        by_cases h' : b.data.length * 2 < b.data.length + (t.length + 1)
        · rw [if_pos h']; omega
        · rw [if_neg h']; omega
      · rw [if_neg h]
        exact ⟨[], by rw [List.append_nil], by rw [List.append_nil]; omega⟩
    obtain ⟨he, hl⟩ := hd
    generalize hD : b.data ++ d = D at he hl
    have hc' : D.take b.used = c := by rw [← hD, List.take_append_of_le_length hb, hc]
    unfold Buffer.append
    rw [he]
    dsimp only
    rw [if_pos (show b.used ≤ D.length by omega), if_neg (show ¬ (D.length - b.used = 0) by omega),
      List.take_of_length_le (show t.length ≤ D.length - b.used - 1 by omega)]
    have hlen : b.used + t.length ≤ (D.take b.used ++ (t ++ [(0 : UInt8)]) ++ D.drop (b.used + (t ++ [(0 : UInt8)]).length)).length := by
      simp only [List.length_append, List.length_take, List.length_drop, List.length_singleton]
      omega
    refine ⟨_, rfl, hlen, ?_⟩
    unfold Buffer.contents
    rw [if_pos hlen]
    dsimp only
    have hcl : c.length = b.used := by rw [← hc', List.length_take]; omega
    rw [hc', show c ++ (t ++ [(0 : UInt8)]) ++ D.drop (b.used + (t ++ [(0 : UInt8)]).length) = (c ++ t) ++ ([(0 : UInt8)] ++ D.drop (b.used + (t ++ [(0 : UInt8)]).length)) by
      simp only [List.append_assoc], List.take_append_of_le_length (by rw [List.length_append]; omega),
      List.take_of_length_le (by rw [List.length_append]; omega)]
  have all : ∀ (ts : List (List UInt8)) (b : Buffer) (c : List UInt8), b.used ≤ b.data.length → b.contents = .ok c →
      ∃ b', ts.foldlM (fun b t => b.append t junk) b = .ok b' ∧ b'.contents = .ok (c ++ ts.flatten) := by
    intro ts
    induction ts with
    | nil => intro b c hb hc; exact ⟨b, rfl, by rw [hc]; simp⟩
    | cons t ts ih =>
      intro b c hb hc
      obtain ⟨b1, h1, h2, h3⟩ := step b t c hb hc
      obtain ⟨b2, h4, h5⟩ := ih b1 _ h2 h3
      refine ⟨b2, ?_, ?_⟩
      · rw [List.foldlM_cons, h1]
        exact h4
      · rw [h5, List.append_assoc]
        rfl
  exact all ts Buffer.init [] (Nat.le_refl _) rfl

/-! ## One way to read it -/

theorem Quoted.inj {s s' t t' : List UInt8} (h : Quoted s) (h' : Quoted s') (e : s ++ 34 :: t = s' ++ 34 :: t') : s = s' ∧ t = t' := by
  induction h generalizing s' with
  | nil =>
    cases h' with
    | nil => cases e; exact ⟨rfl, rfl⟩
    | char h1 _ _ => injection e with e; exact absurd e.symm h1
    | pair _ => injection e with e; cases e
  | char h1 h2 _ ih =>
    cases h' with
    | nil => injection e with e; exact absurd e h1
    | char _ _ h' =>
      injection e with e1 e
      obtain ⟨h3, h4⟩ := ih h' e
      exact ⟨by rw [e1, h3], h4⟩
    | pair _ => injection e with e; exact absurd e h2
  | pair _ ih =>
    cases h' with
    | nil => injection e with e; cases e
    | char _ h2 _ => injection e with e; exact absurd e.symm h2
    | pair h' =>
      injection e with _ e
      injection e with e1 e
      obtain ⟨h3, h4⟩ := ih h' e
      exact ⟨by rw [e1, h3], h4⟩

theorem b_node : bytes "node_" = [110, 111, 100, 101, 95] := by decide
theorem b_label : bytes " [label=\"" = [32, 91, 108, 97, 98, 101, 108, 61, 34] := by decide
theorem b_close : bytes "\"];" = [34, 93, 59] := by decide
theorem b_to : bytes " -> node_" = [32, 45, 62, 32, 110, 111, 100, 101, 95] := by decide
theorem b_semi : bytes ";" = [59] := by decide

theorem digits_inj {m n : Nat} {ds : List UInt8} (h : Digits m ds) (h' : Digits n ds) : m = n := h.2.2.symm.trans h'.2.2

theorem Items.unique {is is' : List Item} {t : List UInt8} (h : Items is t) (h' : Items is' t) : is' = is := by
  induction h generalizing is' with
  | stop =>
    cases h' with
    | stop => rfl
    | blank hc _ => rcases hc with h | h | h <;> cases h
  | @blank c is t hc _ ih =>
    have hb : ∀ u : List UInt8, bytes "node_" ++ u ≠ c :: t := fun u e => by
      rw [b_node] at e
      injection e with e
      rcases hc with h | h | h <;> rw [h] at e <;> cases e
    generalize hq : c :: t = q at h'
    cases h' with
    | stop =>
      injection hq with e
      rcases hc with h | h | h <;> rw [h] at e <;> cases e
    | blank _ h' =>
      injection hq with _ hq
      subst hq
      exact ih h'
    | decl => exact absurd hq.symm (hb _)
    | arrow => exact absurd hq.symm (hb _)
  | @decl n ds s t is hd hs _ ih =>
    generalize hq : bytes "node_" ++ (ds ++ (bytes " [label=\"" ++ (s ++ (bytes "\"];" ++ t)))) = q at h'
    cases h' with
    | stop => rw [b_node] at hq; injection hq with e; cases e
    | blank hc _ =>
      rw [b_node] at hq
      injection hq with e
      rcases hc with h | h | h <;> rw [h] at e <;> cases e
    | @decl n' ds' s' t' is' hd' hs' h' =>
      have hq := List.append_cancel_left hq
      rw [b_label, b_close] at hq
      obtain ⟨h1, hq1⟩ := append_cons_inj (c := 32) (hd.not_mem rfl) (hd'.not_mem rfl) hq
      subst h1
      have hq := List.append_cancel_left (as := [91, 108, 97, 98, 101, 108, 61, 34]) hq1
      obtain ⟨h2, hq2⟩ := hs.inj hs' hq
      subst h2
      have hq := List.append_cancel_left (as := [93, 59]) hq2
      subst hq
      rw [ih h', digits_inj hd hd']
    | @arrow a b as bs t' is' ha hb h' =>
      have hq := List.append_cancel_left hq
      rw [b_label, b_to] at hq
      obtain ⟨_, hq⟩ := append_cons_inj (c := 32) (hd.not_mem rfl) (ha.not_mem rfl) hq
      injection hq with e
      cases e
  | @arrow a b as bs t is ha hb _ ih =>
    generalize hq : bytes "node_" ++ (as ++ (bytes " -> node_" ++ (bs ++ (bytes ";" ++ t)))) = q at h'
    cases h' with
    | stop => rw [b_node] at hq; injection hq with e; cases e
    | blank hc _ =>
      rw [b_node] at hq
      injection hq with e
      rcases hc with h | h | h <;> rw [h] at e <;> cases e
    | @decl n' ds' s' t' is' hd' hs' h' =>
      have hq := List.append_cancel_left hq
      rw [b_label, b_to] at hq
      obtain ⟨_, hq⟩ := append_cons_inj (c := 32) (ha.not_mem rfl) (hd'.not_mem rfl) hq
      injection hq with e
      cases e
    | @arrow a' b' as' bs' t' is' ha' hb' h' =>
      have hq := List.append_cancel_left hq
      rw [b_to, b_semi] at hq
      obtain ⟨h1, hq1⟩ := append_cons_inj (c := 32) (ha.not_mem rfl) (ha'.not_mem rfl) hq
      subst h1
      have hq := List.append_cancel_left (as := [45, 62, 32, 110, 111, 100, 101, 95]) hq1
      obtain ⟨h2, hq2⟩ := append_cons_inj (c := 59) (hb.not_mem rfl) (hb'.not_mem rfl) hq
      subst h2
      have hq : t = t' := hq2
      subst hq
      rw [ih h', digits_inj ha ha', digits_inj hb hb']

/-- A text is a graph in at most one way. -/
theorem C110_unique {is is' : List Item} {t : List UInt8} (h : Dot is t) (h' : Dot is' t) : is' = is := by
  obtain ⟨u, rfl, hu⟩ := h
  obtain ⟨v, e, hv⟩ := h'
  rw [← List.append_cancel_left e] at hv
  exact hu.unique hv

/-! ## The labels that are written -/

/-- What can stand between quotes and has no NUL. -/
def LabelOk (fmt : BitVec 64 → List UInt8) (l : Label) : Prop := Quoted (labelText fmt l) ∧ 0 ∉ labelText fmt l

theorem quoted_plain : ∀ {s : List UInt8}, (∀ c ∈ s, c ≠ 34 ∧ c ≠ 92 ∧ c ≠ 0) → Quoted s ∧ 0 ∉ s
  | [], _ => ⟨.nil, nofun⟩
  | c :: s, h => by
    obtain ⟨h1, h2⟩ := quoted_plain (s := s) fun d hd => h d (List.mem_cons_of_mem _ hd)
    have hc := h c (List.mem_cons_self ..)
    refine ⟨.char hc.1 hc.2.1 h1, fun q => ?_⟩
    rcases List.mem_cons.1 q with q | q
    · exact hc.2.2 q.symm
    · exact h2 q

theorem quoted_escape : ∀ s : List UInt8, Quoted (escape s) ∧ 0 ∉ escape s
  | [] => ⟨.nil, nofun⟩
  | c :: s => by
    obtain ⟨h1, h2⟩ := quoted_escape s
    have hn : ∀ {d : UInt8}, d ≠ 0 → 0 ∉ d :: escape s := fun {d} hd q => by
      rcases List.mem_cons.1 q with q | q
      · exact hd q.symm
      · exact h2 q
    have hp : ∀ {d : UInt8}, d ≠ 0 → 0 ∉ [92, d] ++ escape s := fun {d} hd q => by
      rcases List.mem_cons.1 q with q | q
      · cases q
      · exact hn hd q
    unfold escape
    by_cases a0 : c = 0
    · rw [if_pos a0]; exact ⟨.nil, nofun⟩
    · rw [if_neg a0]
      by_cases a1 : c = 34
      · rw [if_pos a1]; exact ⟨.pair h1, hp (by decide)⟩
      · rw [if_neg a1]
        by_cases a2 : c = 92
        · rw [if_pos a2]; exact ⟨.pair h1, hp (by decide)⟩
        · rw [if_neg a2]
          by_cases a3 : c = 9
          · rw [if_pos a3]; exact ⟨.pair h1, hp (by decide)⟩
          · rw [if_neg a3]
            by_cases a4 : c = 10
            · rw [if_pos a4]; exact ⟨.pair h1, hp (by decide)⟩
            · rw [if_neg a4]; exact ⟨.char a1 a2 h1, hn a0⟩

theorem char_plain {c : UInt8} (h : Parse.identChar c = true) : c ≠ 34 ∧ c ≠ 92 ∧ c ≠ 0 := by
  refine ⟨?_, ?_, ?_⟩ <;> rintro rfl <;> exact absurd h (by decide)

theorem start_char {c : UInt8} (h : Parse.identStart c = true) : Parse.identChar c = true := by
  unfold Parse.identStart at h
  unfold Parse.identChar
  rw [Bool.or_eq_true] at h
  rcases h with h | h <;> rw [h] <;> simp

theorem name_ok (fmt : BitVec 64 → List UInt8) {n : Name} (h : nameOk n = true) : LabelOk fmt (.name n) := by
  obtain ⟨⟨c, v, rfl, h1, h2⟩, -⟩ := Parse.nameOk_spec h
  refine quoted_plain fun d hd => ?_
  rcases List.mem_cons.1 hd with rfl | hd
  · exact char_plain (start_char h1)
  · exact char_plain (h2 d hd)

theorem digit_plain {c : UInt8} (h : isDigit c = true) : c ≠ 34 ∧ c ≠ 92 ∧ c ≠ 0 := by
  refine ⟨?_, ?_, ?_⟩ <;> rintro rfl <;> exact absurd h (by decide)

theorem int_plain (v : Int) : ∀ c ∈ lld v, c ≠ 34 ∧ c ≠ 92 ∧ c ≠ 0 := by
  intro c hc
  unfold lld at hc
  by_cases hv : v < 0
  · rw [if_pos hv] at hc
    rcases List.mem_cons.1 hc with rfl | hc
    · decide
    · exact digit_plain ((dec_digits _).1 c hc)
  · rw [if_neg hv] at hc
    exact digit_plain ((dec_digits _).1 c hc)

theorem word_ok (fmt : BitVec 64 → List UInt8) {w : String} (h : ∀ c ∈ bytes w, c ≠ 34 ∧ c ≠ 92 ∧ c ≠ 0) : LabelOk fmt (.word w) :=
  quoted_plain h

/-- Only labels of that kind are added. -/
def Keeps (fmt : BitVec 64 → List UInt8) (f : Nat → GV → Exec GV) : Prop :=
  ∀ n g g', (∀ d ∈ g.head, LabelOk fmt d.2) → f n g = .ok g' → ∀ d ∈ g'.head, LabelOk fmt d.2

variable {fmt : BitVec 64 → List UInt8}

theorem keeps_decl {l : Label} (hl : LabelOk fmt l) {n : Nat} {g : GV} (h : ∀ d ∈ g.head, LabelOk fmt d.2) :
    ∀ d ∈ (decl n l g).head, LabelOk fmt d.2 := by
  intro d hd
  rcases List.mem_append.1 (show d ∈ g.head ++ [(n, l)] from hd) with hd | hd
  · exact h d hd
  · rw [List.mem_singleton.1 hd]; exact hl

theorem keeps_child {f : Nat → GV → Exec GV} (h : Keeps fmt f) : Keeps fmt fun n g => child n f g := by
  intro n g g' hg e
  obtain ⟨g1, h1, h2⟩ := Exec.bind_eq_ok.1 e
  cases h2
  exact h _ { g with count := g.count + 1 } g1 hg h1

theorem keeps_seq {f f' : Nat → GV → Exec GV} (h : Keeps fmt f) (h' : Keeps fmt f') : Keeps fmt fun n g => f n g >>= fun g => f' n g := by
  intro n g g' hg e
  obtain ⟨g1, h1, h2⟩ := Exec.bind_eq_ok.1 e
  exact h' _ _ _ (h _ _ _ hg h1) h2

theorem keeps_label {l : Label} (hl : LabelOk fmt l) {f : Nat → GV → Exec GV} (h : Keeps fmt f) : Keeps fmt fun n g => f n (decl n l g) :=
  fun n g g' hg e => h n _ g' (keeps_decl hl hg) e

theorem keeps_leaf {l : Label} (hl : LabelOk fmt l) : Keeps fmt fun n g => .ok (decl n l g) := fun n g g' hg e => by
  cases e
  exact keeps_decl hl hg

theorem keeps_ok : Keeps fmt fun _ g => .ok g := fun n g g' hg e => by
  cases e
  exact hg

theorem keeps_place {tup : Bool} {f : Nat → GV → Exec GV} (h : Keeps fmt f) : Keeps fmt fun n g => place tup n f g := by
  cases tup with
  | true => exact keeps_child h
  | false => exact h

theorem keeps_one {l : Label} (hl : LabelOk fmt l) {f : Nat → GV → Exec GV} (h : Keeps fmt f) : Keeps fmt fun n g => child n f (decl n l g) :=
  keeps_label hl (keeps_child h)

theorem keeps_two {l : Label} (hl : LabelOk fmt l) {f f' : Nat → GV → Exec GV} (h : Keeps fmt f) (h' : Keeps fmt f') :
    Keeps fmt fun n g => child n f (decl n l g) >>= fun g => child n f' g :=
  keeps_label hl (keeps_seq (keeps_child h) (keeps_child h'))

theorem keeps_field (i : RExpr) (h : isField i = true) : Keeps fmt (expr i false) := by
  cases i with
  | str s p => exact keeps_leaf (quoted_escape s)
  | _ => cases h

variable {flt : List UInt8 → Option (BitVec 64)} {fs : BitVec 64 → List UInt8}

/-- The words of the labels. -/
theorem un_ok (op : UnOp) : LabelOk fmt (.word (unLabel op)) := by cases op <;> exact word_ok fmt (by decide)
theorem bin_ok (op : BinOp) : LabelOk fmt (.word (binLabel op)) := by cases op <;> exact word_ok fmt (by decide)

mutual
theorem keeps_E (hp : Plain fmt) : ∀ (e : RExpr) (fn tup : Bool), OkE flt fs fn e → Keeps fmt (expr e tup)
  | .pair a b _, fn, true, h => keeps_seq (keeps_E hp a false true h.1) (keeps_E hp b false true h.2)
  | .pair a b _, fn, false, h => keeps_ok
  | .un op a _, fn, tup, h => keeps_place (keeps_one (un_ok op) (keeps_E hp a false false h))
  | .bin op a b _, fn, tup, h => keeps_place (keeps_two (bin_ok op) (keeps_E hp a false false h.1) (keeps_E hp b false false h.2))
  | .and a b _, fn, tup, h => keeps_place (keeps_two (word_ok fmt (by decide)) (keeps_E hp a false false h.1) (keeps_E hp b false false h.2))
  | .or a b _, fn, tup, h => keeps_place (keeps_two (word_ok fmt (by decide)) (keeps_E hp a false false h.1) (keeps_E hp b false false h.2))
  | .ass a b _, fn, tup, h => keeps_place (keeps_two (word_ok fmt (by decide)) (keeps_E hp a false false h.1) (keeps_E hp b false false h.2))
  | .arw a b _, fn, tup, h => keeps_place (keeps_two (word_ok fmt (by decide)) (keeps_E hp a false false h.1) (keeps_field b h.2))
  | .int v _, fn, tup, h => keeps_place (keeps_leaf (quoted_plain (int_plain _)))
  | .float x _, fn, tup, h => keeps_place (keeps_leaf (quoted_plain (hp x)))
  | .str s _, fn, tup, h => keeps_place (keeps_leaf (quoted_escape s))
  | .ident x _, fn, tup, h => keeps_place (keeps_leaf (name_ok fmt h))
  | .list es _, fn, tup, h => keeps_place (keeps_label (word_ok fmt (by decide)) (keeps_Es hp es h))
  | .map ps _, fn, tup, h => keeps_place (keeps_label (word_ok fmt (by decide)) (keeps_Ps hp ps h))
  | .call c _, fn, tup, h => keeps_place (keeps_label (word_ok fmt (by decide)) (keeps_C hp c h))
  | .func f _, fn, tup, h => keeps_place (keeps_F hp f (word_ok fmt (by decide)) h.2)
  | .select s i _, fn, tup, h => by
    refine keeps_place (keeps_two (word_ok fmt (by decide)) (keeps_E hp s false false h.1) ?_)
    cases hi : isField i with
    | true => exact keeps_field i hi
    | false => exact keeps_E hp i false false (h.2 hi)
  | .none _, fn, tup, h => keeps_place (keeps_leaf (word_ok fmt (by decide)))
  | .tru _, fn, tup, h => keeps_place (keeps_leaf (word_ok fmt (by decide)))
  | .fls _, fn, tup, h => keeps_place (keeps_leaf (word_ok fmt (by decide)))
theorem keeps_C (hp : Plain fmt) : ∀ c : RCall, OkC flt fs c → Keeps fmt (call c)
  | .fn f as, h => keeps_seq (keeps_child (keeps_E hp f false false h.1)) (keeps_Es hp as h.2.2)
  | .method s i _ as, h =>
    keeps_seq (keeps_child (keeps_two (word_ok fmt (by decide)) (keeps_E hp s false false h.1) (keeps_field i h.2.1))) (keeps_Es hp as h.2.2)
theorem keeps_Es (hp : Plain fmt) : ∀ es : RExprs, OkEs flt fs es → Keeps fmt (exprs es)
  | .nil, _ => keeps_ok
  | .cons e es, h => keeps_seq (keeps_child (keeps_E hp e false false h.1)) (keeps_Es hp es h.2)
theorem keeps_Ps (hp : Plain fmt) : ∀ ps : RPairs, OkPs flt fs ps → Keeps fmt (pairs ps)
  | .nil, _ => keeps_ok
  | .cons k i ps, h => by
    have hk : Keeps fmt (expr k false) := by
      cases hi : isField k with
      | true => exact keeps_field k hi
      | false => exact keeps_E hp k false false (h.1 hi)
    intro n g g' hg e
    have h2 := keeps_seq (keeps_child hk) (keeps_child (keeps_E hp i true false h.2.2.1))
    obtain ⟨g1, e1, e⟩ := Exec.bind_eq_ok.1 e
    obtain ⟨g2, e2, e⟩ := Exec.bind_eq_ok.1 e
    refine keeps_Ps hp ps h.2.2.2 _ _ _ ?_ e
    refine keeps_child (keeps_E hp i true false h.2.2.1) _ _ _ (keeps_child hk _ _ _ ?_ e1) e2
    exact keeps_decl (g := { g with count := g.count + 1 }) (word_ok fmt (by decide)) hg
theorem keeps_F (hp : Plain fmt) : ∀ (f : RFun) {l : Label}, LabelOk fmt l → OkF flt fs f → Keeps fmt (func f l)
  | .mk ps b, l, hl, h => by
    intro n g g' hg e
    obtain ⟨g1, e1, e⟩ := Exec.bind_eq_ok.1 e
    refine keeps_child (keeps_S hp b h.2) _ _ _ (keeps_A hp ps h.1 _ _ _ ?_ e1) e
    exact keeps_decl (g := { decl n l g with count := (decl n l g).count + 1 }) (word_ok fmt (by decide)) (keeps_decl (n := n) hl hg)
theorem keeps_A (hp : Plain fmt) : ∀ ps : RParams, OkParams flt fs ps → Keeps fmt (params ps)
  | .nil, _ => keeps_ok
  | .cons x v t _ ps, h => by
    intro n g g' hg e
    obtain ⟨g1, e1, e⟩ := Exec.bind_eq_ok.1 e
    obtain ⟨g2, e2, e⟩ := Exec.bind_eq_ok.1 e
    refine keeps_A hp ps h.2.2.2 _ _ _ (keeps_O hp t h.2.2.1 _ _ _ (keeps_O hp v h.2.1 _ _ _ ?_ e1) e2) e
    exact keeps_decl (g := { g with count := g.count + 1 }) (name_ok fmt h.1) hg
theorem keeps_O (hp : Plain fmt) : ∀ o : ROpt, OkO flt fs o → Keeps fmt (opt o)
  | .no, _ => keeps_ok
  | .yes e, h => keeps_child (keeps_E hp e false false h)
theorem keeps_S (hp : Plain fmt) : ∀ s : RStmt, OkS flt fs s → Keeps fmt (stmt s)
  | .expr e, h => keeps_E hp e false false h
  | .brk _, _ => keeps_leaf (word_ok fmt (by decide))
  | .ifElse c t f _, h =>
    keeps_label (f := fun n g => child n (expr c false) g >>= fun g => child n (stmt t) g >>= fun g => child n (stmt f) g) (word_ok fmt (by decide))
      (keeps_seq (keeps_child (keeps_E hp c false false h.1)) (keeps_seq (keeps_child (keeps_S hp t h.2.1)) (keeps_child (keeps_S hp f h.2.2.2))))
  | .ifOnly c t _, h => keeps_two (word_ok fmt (by decide)) (keeps_E hp c false false h.1) (keeps_S hp t h.2)
  | .while c b _, h => keeps_two (word_ok fmt (by decide)) (keeps_E hp c false false h.1) (keeps_S hp b h.2)
  | .doWhile b c _, h => keeps_two (word_ok fmt (by decide)) (keeps_E hp c false false h.2) (keeps_S hp b h.1)
  | .comp ss _, h => keeps_label (word_ok fmt (by decide)) (keeps_Ss hp ss h)
  | .ret e _, h => by
    intro n g g' hg eq
    simp only [stmt] at eq
    by_cases hc : e.tupleCount > 32
    · rw [if_pos hc] at eq; cases eq
    · rw [if_neg hc] at eq
      exact keeps_E hp e false true h _ _ _ (keeps_decl (word_ok fmt (by decide)) hg) eq
  | .func x f _ _, h => keeps_label (word_ok fmt (by decide)) (keeps_F hp f (name_ok fmt h.1) h.2)
theorem keeps_Ss (hp : Plain fmt) : ∀ ss : RStmts, OkSs flt fs ss → Keeps fmt (stmts ss)
  | .nil, _ => keeps_ok
  | .cons s ss, h => keeps_seq (keeps_child (keeps_S hp s h.1)) (keeps_Ss hp ss h.2)
end

/-! ## The text is a graph -/

variable (fmt) in
def itemsOf (g : GV) : List Item := g.head.map (fun d => .decl d.1 (labelText fmt d.2)) ++ g.body.map fun a => .arrow a.1 a.2

theorem items_body : ∀ bs : List (Nat × Nat), Items (bs.map fun a => .arrow a.1 a.2) (bs.flatMap bodyLine ++ bytes "}\n")
  | [] => .stop
  | a :: bs => by
    have h := Items.blank (c := 9) (.inl rfl) (.arrow (dec_digits a.1) (dec_digits a.2) (.blank (c := 10) (.inr (.inl rfl)) (items_body bs)))
    refine Eq.mp ?_ h
    show Items (Item.arrow a.1 a.2 :: bs.map _) _ = Items (Item.arrow a.1 a.2 :: bs.map _) _
    congr 1
    unfold bodyLine nodeName
    simp only [List.flatMap_cons]
    rw [b_to, b_semi, b_node, show bytes "\t" = [9] by decide, show bytes " -> " = [32, 45, 62, 32] by decide,
      show bytes ";\n" = [59, 10] by decide]
    simp only [List.append_assoc, List.cons_append, List.nil_append]

theorem items_head {is : List Item} {t : List UInt8} (h : Items is t) : ∀ hs : List (Nat × Label), (∀ d ∈ hs, LabelOk fmt d.2) →
    Items (hs.map (fun d => .decl d.1 (labelText fmt d.2)) ++ is) (hs.flatMap (headLine fmt) ++ t)
  | [], _ => h
  | d :: hs, hq => by
    have ih := items_head h hs fun d hd => hq d (List.mem_cons_of_mem _ hd)
    have h := Items.blank (c := 9) (.inl rfl) (.decl (dec_digits d.1) (hq d (List.mem_cons_self ..)).1 (.blank (c := 10) (.inr (.inl rfl)) ih))
    refine Eq.mp ?_ h
    show Items (Item.decl d.1 (labelText fmt d.2) :: (hs.map _ ++ is)) _ = Items (Item.decl d.1 (labelText fmt d.2) :: (hs.map _ ++ is)) _
    congr 1
    unfold headLine nodeName
    simp only [List.flatMap_cons]
    rw [b_label, b_close, b_node, show bytes "\t" = [9] by decide, show bytes "\"];\n" = [34, 93, 59, 10] by decide]
    simp only [List.append_assoc, List.cons_append, List.nil_append]

theorem dot_text (g : GV) (h : ∀ d ∈ g.head, LabelOk fmt d.2) : Dot (itemsOf fmt g) (graphText fmt g) := by
  refine ⟨bytes "\n" ++ (g.head.flatMap (headLine fmt) ++ (bytes "\n" ++ (g.body.flatMap bodyLine ++ bytes "}\n"))), ?_, ?_⟩
  · unfold graphText
    rw [show bytes "digraph G {\n" = bytes "digraph G {" ++ bytes "\n" by decide]
    simp only [List.append_assoc]
  · exact .blank (c := 10) (.inr (.inl rfl)) (items_head (.blank (c := 10) (.inr (.inl rfl)) (items_body g.body)) g.head h)

theorem zero_node (n : Nat) : 0 ∉ nodeName n := fun q => by
  unfold nodeName at q
  rcases List.mem_append.1 q with q | q
  · exact absurd q (by decide)
  · exact absurd ((dec_digits n).1 0 q) (by decide)

theorem zero_text (g : GV) (h : ∀ d ∈ g.head, LabelOk fmt d.2) : 0 ∉ graphText fmt g := fun q => by
  unfold graphText at q
  rcases List.mem_append.1 q with q | q
  · rcases List.mem_append.1 q with q | q
    · rcases List.mem_append.1 q with q | q
      · exact absurd q (by decide)
      · obtain ⟨d, hd, q⟩ := List.mem_flatMap.1 q
        unfold headLine at q
        rcases List.mem_append.1 q with q | q
        · rcases List.mem_append.1 q with q | q
          · rcases List.mem_append.1 q with q | q
            · rcases List.mem_append.1 q with q | q
              · exact absurd q (by decide)
              · exact zero_node _ q
            · exact absurd q (by decide)
          · exact (h d hd).2 q
        · exact absurd q (by decide)
    · exact absurd q (by decide)
  · rcases List.mem_append.1 q with q | q
    · obtain ⟨a, ha, q⟩ := List.mem_flatMap.1 q
      unfold bodyLine at q
      rcases List.mem_append.1 q with q | q
      · rcases List.mem_append.1 q with q | q
        · rcases List.mem_append.1 q with q | q
          · rcases List.mem_append.1 q with q | q
            · exact absurd q (by decide)
            · exact zero_node _ q
          · exact absurd q (by decide)
        · exact zero_node _ q
      · exact absurd q (by decide)
    · exact absurd q (by decide)

/-! ## What is seen in it -/

theorem labelOf_arrows (n : Nat) : ∀ bs : List (Nat × Nat), labelOf n (bs.map fun a => .arrow a.1 a.2) = none
  | [] => rfl
  | _ :: bs => labelOf_arrows n bs

theorem shown_cons (d : Nat × Label) (hs : List (Nat × Label)) (n : Nat) :
    shown (d :: hs) n = match shown hs n with | some l => some l | none => if d.1 = n then some d.2 else none := by
  unfold shown
  by_cases h : d.1 = n
  · rw [List.filter_cons_of_pos (by simpa using h)]
    cases hf : hs.filter (fun d => d.1 == n) with
    | nil => simp [h]
    | cons x xs =>
      rw [List.getLast?_cons_cons]
      cases hl : (x :: xs).getLast? with
      | none => simp at hl
      | some y => rfl
  · rw [List.filter_cons_of_neg (by simpa using h)]
    cases hf : (List.filter (fun d => d.1 == n) hs).getLast? with
    | none => simp [h]
    | some y => rfl

theorem labelOf_items (n : Nat) (bs : List (Nat × Nat)) : ∀ hs : List (Nat × Label),
    labelOf n (hs.map (fun d => .decl d.1 (labelText fmt d.2)) ++ bs.map fun a => .arrow a.1 a.2) = (shown hs n).map (labelText fmt)
  | [] => labelOf_arrows n bs
  | d :: hs => by
    rw [shown_cons]
    show (match labelOf n (hs.map _ ++ _) with | some x => some x | none => if d.1 = n then some (labelText fmt d.2) else none) = _
    rw [labelOf_items n bs hs]
    cases shown hs n with
    | some l => rfl
    | none =>
      by_cases h : d.1 = n
      · simp [h]
      · simp [h]

theorem ends_arrows (n : Nat) : ∀ bs : List (Nat × Nat), ends n (bs.map fun a => .arrow a.1 a.2) = kidsOf bs n
  | [] => rfl
  | a :: bs => by
    show (if a.1 = n then a.2 :: ends n (bs.map _) else ends n (bs.map _)) = _
    rw [ends_arrows n bs]
    unfold kidsOf
    by_cases h : a.1 = n
    · rw [if_pos h, List.filter_cons_of_pos (by simpa using h)]; rfl
    · rw [if_neg h, List.filter_cons_of_neg (by simpa using h)]

theorem ends_items (n : Nat) (bs : List (Nat × Nat)) : ∀ hs : List (Nat × Label),
    ends n (hs.map (fun d => .decl d.1 (labelText fmt d.2)) ++ bs.map fun a => .arrow a.1 a.2) = kidsOf bs n
  | [] => ends_arrows n bs
  | _ :: hs => ends_items n bs hs

theorem allEnds_arrows : ∀ bs : List (Nat × Nat), allEnds (bs.map fun a => .arrow a.1 a.2) = bs.map Prod.snd
  | [] => rfl
  | a :: bs => by
    show a.2 :: allEnds (bs.map _) = _
    rw [allEnds_arrows bs]
    rfl

theorem allEnds_items (bs : List (Nat × Nat)) : ∀ hs : List (Nat × Label),
    allEnds (hs.map (fun d => .decl d.1 (labelText fmt d.2)) ++ bs.map fun a => .arrow a.1 a.2) = bs.map Prod.snd
  | [] => allEnds_arrows bs
  | _ :: hs => allEnds_items bs hs

theorem says_text (l : Label) : Says fmt l (labelText fmt l) := by
  cases l with
  | word w => exact .word w
  | name n => exact .name n
  | float b => exact .float b
  | text s => exact .text s
  | num v =>
    refine .num ?_
    show IntText v (lld v)
    unfold lld
    by_cases h : v < 0
    · rw [if_pos h]; exact .inr ⟨h, _, rfl, dec_digits _⟩
    · rw [if_neg h]; exact .inl ⟨by omega, dec_digits _⟩

mutual
theorem seen_of {g : GV} : ∀ {n : Nat} {t : Tree}, Draws g.head g.body n t → Seen fmt (itemsOf fmt g) n t
  | _, _, .node _ _ _ ns h1 h3 h2 => by
    refine .node (s := labelText fmt _) ?_ (says_text _) ?_
    · unfold itemsOf
      rw [labelOf_items, h1]
      rfl
    · unfold itemsOf
      rw [ends_items, h3]
      exact seenAll_of h2
theorem seenAll_of {g : GV} : ∀ {ns : List Nat} {ts : Trees}, DrawsAll g.head g.body ns ts → SeenAll fmt (itemsOf fmt g) ns ts
  | _, _, .nil => .nil
  | _, _, .cons _ _ _ _ h1 h2 => .cons (seen_of h1) (seenAll_of h2)
end

theorem whole_of {g : GV} (h : IsTree 1 g) : Whole 1 (itemsOf fmt g) := by
  have ha : allEnds (itemsOf fmt g) = g.body.map Prod.snd := allEnds_items _ _
  have hl : ∀ n, labelOf n (itemsOf fmt g) = (shown g.head n).map (labelText fmt) := fun n => labelOf_items n _ _
  have hn : ∀ n, shown g.head n ≠ none → labelOf n (itemsOf fmt g) ≠ none := fun n q r => by
    rw [hl] at r
    exact q (Option.map_eq_none_iff.1 r)
  refine ⟨by rw [ha]; exact h.once, fun n s hm => ?_, fun n hm => ?_, fun a b hm => ?_⟩
  · rw [ha]
    rcases List.mem_append.1 hm with hm | hm
    · obtain ⟨d, hd, e⟩ := List.mem_map.1 hm
      cases e
      exact h.nodes d hd
    · obtain ⟨d, hd, e⟩ := List.mem_map.1 hm
      cases e
  · rw [ha] at hm
    exact hn n (h.ends n hm)
  · rcases List.mem_append.1 hm with hm | hm
    · obtain ⟨d, hd, e⟩ := List.mem_map.1 hm
      cases e
    · obtain ⟨d, hd, e⟩ := List.mem_map.1 hm
      cases e
      exact ⟨(h.starts d hd).1, hn _ (h.starts d hd).2⟩

/-! ## Results -/

theorem labels_ok {fmt : BitVec 64 → List UInt8} {flt : List UInt8 → Option (BitVec 64)} {past : UInt8} {src : List UInt8} {root : RStmts}
    (hf : Plain fmt) (hp : Parse.parse flt past src = .ok root) {g : GV} (hg : diagram root = .ok g) : ∀ d ∈ g.head, LabelOk fmt d.2 := by
  obtain ⟨fs, hfs⟩ := Parse.exists_writes flt
  have hok := Parse.C81_parsed flt fs hfs past src root hp
  exact keeps_Ss hf root hok 1 _ g (keeps_decl (word_ok fmt (by decide)) fun d hd => by cases hd) hg

/-- C110 for the programs of C89 (no tuple but in `return`, and there of at most 32 items, no number of more than 32 bits, no string with a
NUL).  Missing: the others. -/
theorem C110_partial (fmt : BitVec 64 → List UInt8) (flt : List UInt8 → Option (BitVec 64)) (past : UInt8) (src : List UInt8) (root : RStmts)
    (hf : Plain fmt) (hp : Parse.parse flt past src = .ok root) (hr : FineSs root) :
    ∃ t, drawText fmt flt past src = .ok t ∧ Pictures fmt root t := by
  obtain ⟨g, ts, hg, h1, h2, h3⟩ := C89_partial root hr
  have hl := labels_ok hf hp hg
  have hd := dot_text g hl
  refine ⟨graphText fmt g, ?_, zero_text g hl, itemsOf fmt g, ts, hd, fun is' h => C110_unique hd h, h1, seen_of h2, whole_of h3⟩
  unfold drawText
  rw [hp, Exec.bind_ok, hg, Exec.bind_ok]

/-- Whatever the program is: if a text is written, then it can be read as a graph, in one way, and has no NUL. -/
theorem C110_reads (fmt : BitVec 64 → List UInt8) (flt : List UInt8 → Option (BitVec 64)) (past : UInt8) (src t : List UInt8)
    (hf : Plain fmt) (h : drawText fmt flt past src = .ok t) : 0 ∉ t ∧ ∃ is, Dot is t ∧ ∀ is', Dot is' t → is' = is := by
  obtain ⟨root, hp, h⟩ := Exec.bind_eq_ok.1 h
  obtain ⟨g, hg, h⟩ := Exec.bind_eq_ok.1 h
  cases h
  have hl := labels_ok hf hp hg
  have hd := dot_text g hl
  exact ⟨zero_text g hl, itemsOf fmt g, hd, fun is' h => C110_unique hd h⟩

/-- `a, b = f();` -/
def tupleText : List UInt8 := [97, 44, 32, 98, 32, 61, 32, 102, 40, 41, 59]

def tupleGraph : GV := ⟨5, [(1, .word "compound"), (2, .word "="), (4, .word "Call"), (5, .name [102])], [(2, 3), (4, 5), (2, 4), (1, 2)]⟩

theorem tuple_parsed : (Parse.parse (fun _ => none) 0 tupleText >>= diagram) = .ok tupleGraph := by decide +kernel

/-- There is a node without a label in the diagram of `a, b = f();`. -/
theorem C110_violated : ¬ C110Statement := by
  intro h
  obtain ⟨root, hp, hg⟩ := Exec.bind_eq_ok.1 tuple_parsed
  have hf : Plain fun _ => [] := fun b c hc => by cases hc
  obtain ⟨t, ht, -, is, ts, hd, -, -, -, hw⟩ := h (fun _ => []) (fun _ => none) 0 tupleText root hf hp
  unfold drawText at ht
  rw [hp, Exec.bind_ok, hg, Exec.bind_ok] at ht
  cases ht
  have e := C110_unique (dot_text (fmt := fun _ => []) tupleGraph (labels_ok hf hp hg)) hd
  subst e
  exact hw.ends 3 (by decide) (by decide)

theorem escape_name : ∀ {s : List UInt8}, (∀ c ∈ s, Parse.identChar c = true) → escape s = s
  | [], _ => rfl
  | c :: s, h => by
    have hc := h c (List.mem_cons_self ..)
    have hn : ∀ d : UInt8, Parse.identChar d = false → c ≠ d := fun d hd e => by
      rw [e, hd] at hc
      cases hc
    unfold escape
    rw [if_neg (hn 0 rfl), if_neg (hn 34 rfl), if_neg (hn 92 rfl), if_neg (hn 9 rfl), if_neg (hn 10 rfl),
      escape_name fun d hd => h d (List.mem_cons_of_mem _ hd)]

/-- A picture does not tell a name from a string: the programs `x;` and `"x";` have the same text. -/
theorem C110_alike (fmt : BitVec 64 → List UInt8) (n : Name) (p q : Pos) (h : nameOk n = true) :
    ∃ g g', diagram (.cons (.expr (.ident n p)) .nil) = .ok g ∧ diagram (.cons (.expr (.str n q)) .nil) = .ok g' ∧
      graphText fmt g = graphText fmt g' := by
  obtain ⟨⟨c, v, rfl, h1, h2⟩, -⟩ := Parse.nameOk_spec h
  have he : escape (c :: v) = c :: v := escape_name fun d hd => by
    rcases List.mem_cons.1 hd with rfl | hd
    · exact start_char h1
    · exact h2 d hd
  refine ⟨_, _, rfl, rfl, ?_⟩
  rw [he]
  rfl

/-- A program with a function, a map and a string: its text. -/
example : drawText (fun _ => []) (fun _ => none) 0 (bytes "fun f(x=3) return x, {\"a\\n\": true}; f();") = .ok (bytes
    ("digraph G {\n\tnode_1 [label=\"compound\"];\n\tnode_2 [label=\"func\"];\n\tnode_2 [label=\"f\"];\n\tnode_3 [label=\"args\"];\n" ++
     "\tnode_4 [label=\"x\"];\n\tnode_5 [label=\"3\"];\n\tnode_6 [label=\"return\"];\n\tnode_7 [label=\"x\"];\n\tnode_8 [label=\"Map\"];\n" ++
     "\tnode_9 [label=\"Entry\"];\n\tnode_10 [label=\"a\\n\"];\n\tnode_11 [label=\"true\"];\n\tnode_12 [label=\"Call\"];\n\tnode_13 [label=\"f\"];\n\n" ++
     "\tnode_2 -> node_3;\n\tnode_3 -> node_4;\n\tnode_4 -> node_5;\n\tnode_6 -> node_7;\n\tnode_8 -> node_9;\n\tnode_9 -> node_10;\n" ++
     "\tnode_9 -> node_11;\n\tnode_6 -> node_8;\n\tnode_2 -> node_6;\n\tnode_1 -> node_2;\n\tnode_12 -> node_13;\n\tnode_1 -> node_12;\n}\n")) := by
  decide +kernel

/-- `f(-1);`, wherever it is. -/
def isCall : RStmts → Bool
  | .cons (.expr (.call (.fn (.ident _ _) (.cons (.un _ (.int v _) _) .nil)) _)) .nil => decide (v = 1)
  | _ => false

/-- A text as in `C110_partial`. -/
example : ∃ root, Parse.parse (fun _ => none) 0 (bytes "f(-1);") = .ok root ∧ FineSs root := by
  have h : (match Parse.parse (fun _ => none) 0 (bytes "f(-1);") with | .ok root => isCall root | _ => false) = true := by decide +kernel
  cases hp : Parse.parse (fun _ => none) 0 (bytes "f(-1);") with
  | ok root =>
    rw [hp] at h
    dsimp only at h
    refine ⟨root, rfl, ?_⟩
    unfold isCall at h
    split at h
    · rw [of_decide_eq_true h]
      simp [FineSs, FineS, FineE, FineC, FineEs, IsI32]
    · cases h
  | _ => rw [hp] at h; cases h

end Noja.VM.Diagram
