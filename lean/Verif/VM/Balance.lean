import Verif.VM.SimBase

/-!
# Depth of the evaluation stack

For every tree, the depth of the evaluation stack at every instruction of its code: what an
instruction takes is there, and every way to an instruction brings the same depth (C40); every jump
and every function entry is the index of an instruction and nothing runs past the end (C41).
-/

set_option linter.unusedVariables false
set_option linter.unusedSimpArgs false

namespace Noja.VM

/-! ## Control flow of instructions

From `run.c:495-1080`: how many values an instruction needs on the stack of its frame, how many it
takes and how many it leaves, and where execution goes on in the same frame. -/

/-- Values that have to be there. -/
def Instr.needs : Instr → Nat
  | .un _ => 1
  | .bin _ => 2
  | .ass _ => 1
  | .pop n => n
  | .checkType _ _ => 2
  | .call a _ => a + 1
  | .select | .select2 => 2
  | .insert | .insert2 => 3
  | .pushTyp => 1
  | .ret n => n
  | .jumpIf _ | .jumpIfNot _ => 1
  | _ => 0

/-- Values removed. -/
def Instr.takes : Instr → Nat
  | .un _ => 1
  | .bin _ => 2
  | .pop n => n
  | .checkType _ _ => 1
  | .call a _ => a + 1
  | .select => 2
  | .select2 => 1
  | .insert | .insert2 => 2
  | .jumpIf _ | .jumpIfNot _ => 1
  | _ => 0

/-- Values added. -/
def Instr.gives : Instr → Nat
  | .un _ | .bin _ => 1
  | .call _ k => k
  | .select | .select2 => 1
  | .pushInt _ | .pushFlt _ | .pushStr _ | .pushVar _ | .pushNne | .pushTru | .pushFls
  | .pushFun _ _ _ | .pushLst _ | .pushMap _ | .pushNneTyp | .pushTyp => 1
  | _ => 0

/-- Where execution may go on in the same frame. -/
def Instr.next : Instr → (i : Nat) → List Nat
  | .jump a, _ => [a]
  | .jumpIf a, i => [a, i + 1]
  | .jumpIfNot a, i => [a, i + 1]
  | .ret _, _ => []
  | .exit, _ => []
  | _, i => [i + 1]

/-- The instruction where the function that an instruction creates begins, and its number of
arguments. -/
def Instr.entry : Instr → Option (Nat × Nat)
  | .pushFun a n _ => some (a, n)
  | _ => none

/-- The depths `D` are consistent at index `j` of code with `N` instructions. -/
structure Ok (D : Nat → Nat) (N : Nat) (ins : Instr) (j : Nat) : Prop where
  needs : ins.needs ≤ D j
  next : ∀ t ∈ ins.next j, t < N ∧ D t = D j - ins.takes + ins.gives
  entry : ∀ a n, ins.entry = some (a, n) → a < N ∧ D a = n
  ret : ∀ n, ins = .ret n → D j = n
  exit : ins = .exit → D j = 0

/-- Consistent in a stretch of code that stands at `p`. -/
def Seg (D : Nat → Nat) (N p : Nat) (code : List Instr) : Prop :=
  ∀ (i : Nat) ins, code[i]? = some ins → Ok D N ins (p + i)

/-- The depths of a stretch. -/
def Fits (D : Nat → Nat) (p : Nat) (ds : List Nat) : Prop :=
  ∀ (i : Nat) d, ds[i]? = some d → D (p + i) = d

theorem Seg.nil : Seg D N p [] := by intro i ins h; simp at h

theorem Seg.append {D : Nat → Nat} {N p q : Nat} {a b : List Instr} (ha : Seg D N p a) (hq : q = p + a.length)
    (hb : Seg D N q b) : Seg D N p (a ++ b) := by
  subst hq
  intro i ins h
  rw [List.getElem?_append] at h
  by_cases hi : i < a.length
  · rw [if_pos hi] at h; exact ha i ins h
  · rw [if_neg hi] at h
    have := hb _ ins h
    have e : p + a.length + (i - a.length) = p + i := by omega
    rw [e] at this
    exact this

theorem Seg.one {D : Nat → Nat} {N p : Nat} {ins : Instr} (h : Ok D N ins p) : Seg D N p [ins] := by
  intro i x hx
  cases i with
  | zero => simp at hx; subst hx; exact h
  | succ i => simp at hx

theorem Seg.cons {D : Nat → Nat} {N p : Nat} {ins : Instr} {b : List Instr} (h : Ok D N ins p)
    (hb : Seg D N (p + 1) b) : Seg D N p (ins :: b) := (Seg.one h).append rfl hb

theorem Fits.append {D : Nat → Nat} {p : Nat} {a b : List Nat} (h : Fits D p (a ++ b)) :
    Fits D p a ∧ Fits D (p + a.length) b := by
  refine ⟨fun i d hd => h i d ?_, fun i d hd => ?_⟩
  · obtain ⟨hl, -⟩ := List.getElem?_eq_some_iff.1 hd
    rw [List.getElem?_append_left hl, hd]
  · have := h (a.length + i) d (by rw [List.getElem?_append_right (by omega)]; simpa using hd)
    rw [Nat.add_assoc]; exact this

theorem Fits.cons {D : Nat → Nat} {p d : Nat} {b : List Nat} (h : Fits D p (d :: b)) :
    D p = d ∧ Fits D (p + 1) b := by
  have := Fits.append (a := [d]) (b := b) h
  exact ⟨this.1 0 d rfl, this.2⟩

/-! ## The depths of a tree -/

mutual
/-- Depth before each instruction, when it is `x` before the first. -/
def Expr.depths : Expr → (x : Nat) → List Nat
  | .none, x | .tru, x | .fls, x | .int _, x | .float _, x | .str _, x | .ident _, x => [x]
  | .un _ a, x => a.depths x ++ [x + 1]
  | .bin _ a b, x => a.depths x ++ b.depths (x + 1) ++ [x + 2]
  | .and a b, x => a.depths x ++ [x + 1] ++ b.depths x ++ [x + 1] ++ [x, x + 1, x]
  | .or a b, x => a.depths x ++ [x + 1] ++ b.depths x ++ [x + 1] ++ [x, x + 1, x]
  | .assign t e, x => e.depths x ++ t.depths (x + 1)
  | .massign t ts c, x => c.depths x ++ ts.depths (x + 1) ++ [x + 2] ++ t.depths (x + 1)
  | .list items, x => x :: items.depthsItems (x + 1)
  | .map items, x => x :: items.depths (x + 1)
  | .call c, x => c.depths x
  | .select s i, x => s.depths x ++ i.depths (x + 1) ++ [x + 2]
  | .func _ f, x => [x, x + 1] ++ f.depths
def Target.depths : Target → (x : Nat) → List Nat
  | .var _, x => [x]
  | .sel s i, x => s.depths x ++ i.depths (x + 1) ++ [x + 2]
/-- `x` is the depth below the values. -/
def Targets.depths : Targets → (x : Nat) → List Nat
  | .one t, x => t.depths (x + 1)
  | .cons t ts, x => ts.depths (x + 1) ++ [x + 2] ++ t.depths (x + 1)
def Call.depths : Call → (x : Nat) → List Nat
  | .fn f args, x => args.depths x ++ f.depths (x + args.count) ++ [x + args.count + 1]
  | .method s i args, x =>
    args.depths x ++ s.depths (x + args.count) ++ i.depths (x + args.count + 1) ++
      [x + args.count + 2, x + args.count + 2]
def Exprs.depths : Exprs → (x : Nat) → List Nat
  | .nil, _ => []
  | .cons e es, x => e.depths x ++ es.depths (x + 1)
def Exprs.depthsItems : Exprs → (x : Nat) → List Nat
  | .nil, _ => []
  | .cons e es, x => x :: e.depths (x + 1) ++ [x + 2] ++ es.depthsItems x
def Pairs.depths : Pairs → (x : Nat) → List Nat
  | .nil, _ => []
  | .cons k v ps, x => k.depths x ++ v.depths (x + 1) ++ [x + 2] ++ ps.depths x
def FunDef.depths : FunDef → List Nat
  | .mk ps b => ps.depths ++ b.depths ++ [0]
def Params.depths : Params → List Nat
  | .nil => []
  | .cons _ d t ps =>
    d.depthsDflt (ps.count + 1) ++ t.depthsTyp (ps.count + 1) ++ [ps.count + 1, ps.count + 1] ++ ps.depths
def OExpr.depthsDflt : OExpr → (x : Nat) → List Nat
  | .no, _ => []
  | .yes e, x => [x, x + 1, x + 2, x + 1, x] ++ e.depths (x - 1)
def OExpr.depthsTyp : OExpr → (x : Nat) → List Nat
  | .no, _ => []
  | .yes e, x => e.depths x ++ [x + 1]
def Stmt.depths : Stmt → List Nat
  | .expr e => e.depths 0 ++ [1]
  | .ifElse c t f => c.depths 0 ++ [1] ++ t.depths ++ [0] ++ f.depths
  | .ifOnly c t => c.depths 0 ++ [1] ++ t.depths
  | .while c s => c.depths 0 ++ [1] ++ s.depths ++ [0]
  | .doWhile s c => s.depths ++ c.depths 0 ++ [1]
  | .comp ss => ss.depths
  | .ret es => es.depths 0 ++ [es.count]
  | .func _ f => [0, 1] ++ f.depths ++ [1, 1]
  | .brk => [0]
def Stmts.depths : Stmts → List Nat
  | .nil => []
  | .cons s ss => s.depths ++ ss.depths
end

mutual
theorem Expr.depths_length : ∀ (e : Expr) (x : Nat), (e.depths x).length = e.len
  | .none, x | .tru, x | .fls, x | .int _, x | .float _, x | .str _, x | .ident _, x => by
    simp [Expr.depths, Expr.len]
  | .un _ a, x => by simp [Expr.depths, Expr.len, a.depths_length]
  | .bin _ a b, x => by simp [Expr.depths, Expr.len, a.depths_length, b.depths_length, Nat.add_assoc]
  | .and a b, x => by simp [Expr.depths, Expr.len, a.depths_length, b.depths_length]; omega
  | .or a b, x => by simp [Expr.depths, Expr.len, a.depths_length, b.depths_length]; omega
  | .assign t e, x => by simp [Expr.depths, Expr.len, e.depths_length, t.depths_length]
  | .massign t ts c, x => by
    simp [Expr.depths, Expr.len, c.depths_length, ts.depths_length, t.depths_length]; omega
  | .list items, x => by simp [Expr.depths, Expr.len, items.depthsItems_length]; omega
  | .map items, x => by simp [Expr.depths, Expr.len, items.depths_length]; omega
  | .call c, x => by simp [Expr.depths, Expr.len, c.depths_length]
  | .select a b, x => by simp [Expr.depths, Expr.len, a.depths_length, b.depths_length, Nat.add_assoc]
  | .func _ f, x => by simp [Expr.depths, Expr.len, f.depths_length]; omega
theorem Target.depths_length : ∀ (e : Target) (x : Nat), (e.depths x).length = e.len
  | .var _, x => rfl
  | .sel a b, x => by simp [Target.depths, Target.len, a.depths_length, b.depths_length, Nat.add_assoc]
theorem Targets.depths_length : ∀ (e : Targets) (x : Nat), (e.depths x).length = e.len
  | .one t, x => by simp [Targets.depths, Targets.len, t.depths_length]
  | .cons t ts, x => by simp [Targets.depths, Targets.len, t.depths_length, ts.depths_length]; omega
theorem Call.depths_length : ∀ (e : Call) (x : Nat), (e.depths x).length = e.len
  | .fn f args, x => by simp [Call.depths, Call.len, f.depths_length, args.depths_length]; omega
  | .method s i args, x => by
    simp [Call.depths, Call.len, s.depths_length, i.depths_length, args.depths_length]; omega
theorem Exprs.depths_length : ∀ (e : Exprs) (x : Nat), (e.depths x).length = e.len
  | .nil, x => rfl
  | .cons e es, x => by simp [Exprs.depths, Exprs.len, e.depths_length, es.depths_length]
theorem Exprs.depthsItems_length : ∀ (e : Exprs) (x : Nat), (e.depthsItems x).length = e.lenItems
  | .nil, x => rfl
  | .cons e es, x => by
    simp [Exprs.depthsItems, Exprs.lenItems, e.depths_length, es.depthsItems_length]; omega
theorem Pairs.depths_length : ∀ (e : Pairs) (x : Nat), (e.depths x).length = e.len
  | .nil, x => rfl
  | .cons k v es, x => by
    simp [Pairs.depths, Pairs.len, k.depths_length, v.depths_length, es.depths_length]; omega
theorem FunDef.depths_length : ∀ (e : FunDef), e.depths.length = e.len
  | .mk ps b => by simp [FunDef.depths, FunDef.len, ps.depths_length, b.depths_length]; omega
theorem Params.depths_length : ∀ (e : Params), e.depths.length = e.len
  | .nil => rfl
  | .cons _ d t ps => by
    simp [Params.depths, Params.len, d.depthsDflt_length, t.depthsTyp_length, ps.depths_length]; omega
theorem OExpr.depthsDflt_length : ∀ (e : OExpr) (x : Nat), (e.depthsDflt x).length = e.lenDflt
  | .no, x => rfl
  | .yes e, x => by simp [OExpr.depthsDflt, OExpr.lenDflt, e.depths_length]; omega
theorem OExpr.depthsTyp_length : ∀ (e : OExpr) (x : Nat), (e.depthsTyp x).length = e.lenTyp
  | .no, x => rfl
  | .yes e, x => by simp [OExpr.depthsTyp, OExpr.lenTyp, e.depths_length]
theorem Stmt.depths_length : ∀ (e : Stmt), e.depths.length = e.len
  | .expr e => by simp [Stmt.depths, Stmt.len, e.depths_length]
  | .ifElse c t f => by
    simp [Stmt.depths, Stmt.len, c.depths_length, t.depths_length, f.depths_length]; omega
  | .ifOnly c t => by simp [Stmt.depths, Stmt.len, c.depths_length, t.depths_length]; omega
  | .while c t => by simp [Stmt.depths, Stmt.len, c.depths_length, t.depths_length]; omega
  | .doWhile t c => by simp [Stmt.depths, Stmt.len, c.depths_length, t.depths_length]; omega
  | .comp ss => by simp [Stmt.depths, Stmt.len, ss.depths_length]
  | .ret es => by simp [Stmt.depths, Stmt.len, es.depths_length]
  | .func _ f => by simp [Stmt.depths, Stmt.len, f.depths_length]; omega
  | .brk => rfl
theorem Stmts.depths_length : ∀ (e : Stmts), e.depths.length = e.len
  | .nil => rfl
  | .cons s ss => by simp [Stmts.depths, Stmts.len, s.depths_length, ss.depths_length]
end

/-! ## Composition -/

/-- In any code of `N` instructions in which `code` stands at `p`: if the depths before its
instructions are `ds` and the depth behind it is `y`, then it is `x` before it, and if moreover the
targets outside are as assumed, everything in it is consistent. -/
structure Bal (N p : Nat) (code : List Instr) (ds : List Nat) (x y : Nat) (asm : List (Nat × Nat)) :
    Prop where
  len : code.length = ds.length
  start : ∀ D, Fits D p ds → D (p + code.length) = y → D p = x
  seg : ∀ D, Fits D p ds → D (p + code.length) = y → p + code.length < N →
    (∀ g ∈ asm, D g.1 = g.2 ∧ g.1 < N) → Seg D N p code

theorem Bal.nil : Bal N p [] [] x x [] :=
  ⟨rfl, fun D _ h => h, fun _ _ _ _ _ => Seg.nil⟩

theorem Bal.append {N p q : Nat} {a b : List Instr} {da db : List Nat} {x y z : Nat}
    {g1 g2 : List (Nat × Nat)} (h1 : Bal N p a da x y g1) (hq : q = p + a.length)
    (h2 : Bal N q b db y z g2) : Bal N p (a ++ b) (da ++ db) x z (g1 ++ g2) := by
  subst hq
  have split : ∀ D, Fits D p (da ++ db) → D (p + (a ++ b).length) = z →
      Fits D p da ∧ Fits D (p + a.length) db ∧ D (p + a.length + b.length) = z := by
    intro D hf hz
    obtain ⟨f1, f2⟩ := hf.append
    rw [← h1.len] at f2
    refine ⟨f1, f2, ?_⟩
    rw [← hz, List.length_append, Nat.add_assoc]
  refine ⟨by simp [h1.len, h2.len], ?_, ?_⟩
  · intro D hf hz
    obtain ⟨f1, f2, hz⟩ := split D hf hz
    exact h1.start D f1 (h2.start D f2 hz)
  · intro D hf hz hN hg
    obtain ⟨f1, f2, hz⟩ := split D hf hz
    simp only [List.length_append] at hN
    exact (h1.seg D f1 (h2.start D f2 hz) (by omega) (fun g h => hg g (List.mem_append_left _ h))).append rfl
      (h2.seg D f2 hz (by omega) (fun g h => hg g (List.mem_append_right _ h)))

theorem Bal.discharge {N p : Nat} {code : List Instr} {ds : List Nat} {x y : Nat}
    {g1 g2 : List (Nat × Nat)} (h : Bal N p code ds x y g1)
    (hd : ∀ D, Fits D p ds → D (p + code.length) = y → p + code.length < N →
      (∀ g ∈ g2, D g.1 = g.2 ∧ g.1 < N) → ∀ g ∈ g1, D g.1 = g.2 ∧ g.1 < N) :
    Bal N p code ds x y g2 :=
  ⟨h.len, h.start, fun D hf hz hN hg => h.seg D hf hz hN (hd D hf hz hN hg)⟩

/-- An instruction after which execution continues with the next. -/
theorem Bal.instr {N p : Nat} (ins : Instr) (x : Nat) {y : Nat} (hn : ins.needs ≤ x)
    (hy : y = x - ins.takes + ins.gives) (hx : ins.next p = [p + 1]) (he : ins.entry = none)
    (hr : ∀ n, ins ≠ .ret n) (hex : ins ≠ .exit) : Bal N p [ins] [x] x y [] := by
  refine ⟨rfl, fun D hf _ => hf 0 x rfl, fun D hf hz hN _ => Seg.one ?_⟩
  have h0 : D p = x := hf 0 x rfl
  refine ⟨by rw [h0]; exact hn, ?_, ?_, fun n h => absurd h (hr n), fun h => absurd h hex⟩
  · intro t ht
    rw [hx, List.mem_singleton] at ht
    subst ht
    rw [h0, ← hy]
    exact ⟨hN, hz⟩
  · intro a n h
    rw [he] at h
    simp at h

theorem Bal.jump {N p : Nat} (a x y : Nat) : Bal N p [.jump a] [x] x y [(a, x)] := by
  refine ⟨rfl, fun D hf _ => hf 0 x rfl, fun D hf hz hN hg => Seg.one ?_⟩
  have h0 : D p = x := hf 0 x rfl
  refine ⟨Nat.zero_le _, ?_, by simp [Instr.entry], by simp, by simp⟩
  intro t ht
  simp only [Instr.next, List.mem_singleton] at ht
  subst ht
  have := hg (t, x) (by simp)
  exact ⟨this.2, by rw [h0]; exact this.1⟩

theorem Bal.jumpIf {N p : Nat} (a x : Nat) : Bal N p [.jumpIf a] [x + 1] (x + 1) x [(a, x)] := by
  refine ⟨rfl, fun D hf _ => hf 0 _ rfl, fun D hf hz hN hg => Seg.one ?_⟩
  have h0 : D p = x + 1 := hf 0 _ rfl
  refine ⟨by rw [h0]; simp [Instr.needs], ?_, by simp [Instr.entry], by simp, by simp⟩
  intro t ht
  have := hg (a, x) (by simp)
  simp only [Instr.next, List.mem_cons, List.not_mem_nil, or_false] at ht
  rcases ht with rfl | rfl
  · exact ⟨this.2, by rw [h0]; exact this.1⟩
  · exact ⟨hN, by rw [h0]; exact hz⟩

theorem Bal.jumpIfNot {N p : Nat} (a x : Nat) :
    Bal N p [.jumpIfNot a] [x + 1] (x + 1) x [(a, x)] := by
  refine ⟨rfl, fun D hf _ => hf 0 _ rfl, fun D hf hz hN hg => Seg.one ?_⟩
  have h0 : D p = x + 1 := hf 0 _ rfl
  refine ⟨by rw [h0]; simp [Instr.needs], ?_, by simp [Instr.entry], by simp, by simp⟩
  intro t ht
  have := hg (a, x) (by simp)
  simp only [Instr.next, List.mem_cons, List.not_mem_nil, or_false] at ht
  rcases ht with rfl | rfl
  · exact ⟨this.2, by rw [h0]; exact this.1⟩
  · exact ⟨hN, by rw [h0]; exact hz⟩

theorem Bal.pushFun {N p : Nat} (a n : Nat) (name : Name) (x : Nat) :
    Bal N p [.pushFun a n name] [x] x (x + 1) [(a, n)] := by
  refine ⟨rfl, fun D hf _ => hf 0 _ rfl, fun D hf hz hN hg => Seg.one ?_⟩
  have h0 : D p = x := hf 0 _ rfl
  refine ⟨Nat.zero_le _, ?_, ?_, by simp, by simp⟩
  · intro t ht
    simp only [Instr.next, List.mem_singleton] at ht
    subst ht
    exact ⟨hN, by rw [h0]; exact hz⟩
  · intro a' n' h
    simp only [Instr.entry, Option.some.injEq, Prod.mk.injEq] at h
    obtain ⟨rfl, rfl⟩ := h
    have := hg (a, n) (by simp)
    exact ⟨this.2, this.1⟩

theorem Bal.ret {N p : Nat} (n y : Nat) : Bal N p [.ret n] [n] n y [] := by
  refine ⟨rfl, fun D hf _ => hf 0 _ rfl, fun D hf hz hN hg => Seg.one ?_⟩
  have h0 : D p = n := hf 0 _ rfl
  refine ⟨by rw [h0]; exact Nat.le_refl _, by simp [Instr.next], by simp [Instr.entry], ?_, by simp⟩
  intro m h
  cases h
  exact h0

theorem Bal.cast {N p : Nat} {code code' : List Instr} {ds ds' : List Nat} {x y x' y' : Nat}
    {g g' : List (Nat × Nat)} (h : Bal N p code ds x y g) (e1 : code = code') (e2 : ds = ds')
    (e3 : x = x') (e4 : y = y') (e5 : g = g') : Bal N p code' ds' x' y' g' := by
  subst e1 e2 e3 e4 e5; exact h

/-- What a `break` of a statement assumes. -/
def brkAsm : Option Nat → List (Nat × Nat)
  | none => []
  | some b => [(b, 0)]

section
variable {N p : Nat}

theorem Bal.push {ins : Instr} (x : Nat) (h1 : ins.needs = 0) (h2 : ins.takes = 0) (h3 : ins.gives = 1)
    (hx : ins.next p = [p + 1]) (he : ins.entry = none)
    (hr : ∀ n, ins ≠ .ret n) (hex : ins ≠ .exit) : Bal N p [ins] [x] x (x + 1) [] :=
  Bal.instr ins x (by omega) (by omega) hx he hr hex

theorem Bal.pop1 (x : Nat) : Bal N p [.pop 1] [x + 1] (x + 1) x [] :=
  Bal.instr (.pop 1) _ (Nat.le_add_left _ _) rfl rfl rfl (by simp)
    (by simp)

end

theorem bal_mono {N p : Nat} {code : List Instr} {ds : List Nat} {x y : Nat}
    {g1 g2 : List (Nat × Nat)} (h : Bal N p code ds x y g1) (hs : ∀ g ∈ g1, g ∈ g2) :
    Bal N p code ds x y g2 :=
  h.discharge fun D _ _ _ hg g hm => hg g (hs g hm)

/-- `[pushFun, jump] ++ body` -/
theorem bal_func {N p cnt flen : Nat} {fcode : List Instr} {fds : List Nat} (name : Name) (x : Nat)
    (hl : fcode.length = flen)
    (hf : ∀ y, Bal N (p + 2) fcode fds cnt y []) :
    Bal N p ([.pushFun (p + 2) cnt name, .jump (p + 2 + flen)] ++ fcode) ([x, x + 1] ++ fds) x (x + 1) [] := by
  have h := (((Bal.pushFun (N := N) (p := p) (p + 2) cnt name x).append (q := p + 1) rfl
    (Bal.jump (p + 2 + flen) (x + 1) cnt)).append (q := p + 2) rfl (hf (x + 1)))
  refine Bal.discharge (h.cast rfl rfl rfl rfl rfl) ?_
  intro D hfit hz hN _ g hg
  have hfit2 : Fits D (p + 2) fds := (Fits.append (a := [x, x + 1]) hfit).2
  have e : p + ([Instr.pushFun (p + 2) cnt name, .jump (p + 2 + flen)] ++ fcode).length = p + 2 + flen := by
    simp [hl]; omega
  rw [e] at hz hN
  have h2 : D (p + 2) = cnt := (hf (x + 1)).start D hfit2 (by rw [hl]; exact hz)
  simp only [List.append_nil, List.cons_append, List.nil_append, List.mem_cons, List.not_mem_nil, or_false] at hg
  rcases hg with rfl | rfl
  · exact ⟨h2, by show p + 2 < N; omega⟩
  · exact ⟨hz, hN⟩

mutual
theorem Expr.bal {N : Nat} : ∀ (e : Expr) (p x : Nat), e.wf = true →
    Bal N p (e.code p) (e.depths x) x (x + 1) []
  | .none, p, x, _ => Bal.push x rfl rfl rfl rfl rfl (by simp) (by simp)
  | .tru, p, x, _ => Bal.push x rfl rfl rfl rfl rfl (by simp) (by simp)
  | .fls, p, x, _ => Bal.push x rfl rfl rfl rfl rfl (by simp) (by simp)
  | .int _, p, x, _ => Bal.push x rfl rfl rfl rfl rfl (by simp) (by simp)
  | .float _, p, x, _ => Bal.push x rfl rfl rfl rfl rfl (by simp) (by simp)
  | .str _, p, x, _ => Bal.push x rfl rfl rfl rfl rfl (by simp) (by simp)
  | .ident _, p, x, _ => Bal.push x rfl rfl rfl rfl rfl (by simp) (by simp)
  | .un op a, p, x, hw => by
    simp only [Expr.wf] at hw
    exact (a.bal p x hw).append rfl (Bal.instr (.un op) (x + 1) (Nat.le_add_left _ _)
      rfl rfl rfl (by simp) (by simp))
  | .bin op a b, p, x, hw => by
    simp only [Expr.wf, Bool.and_eq_true] at hw
    exact ((a.bal p x hw.1).append (by simp) (b.bal (p + a.len) (x + 1) hw.2)).append rfl
      (Bal.instr (.bin op) (x + 2) (Nat.le_add_left _ _)
      rfl rfl rfl (by simp) (by simp))
  | .and a b, p, x, hw => by
    simp only [Expr.wf, Bool.and_eq_true] at hw
    have h := ((((((a.bal (N := N) p x hw.1).append rfl
      (Bal.jumpIfNot (p + a.len + 1 + b.len + 3) x)).append (q := p + a.len + 1) (by simp [Nat.add_assoc])
      (b.bal _ x hw.2)).append rfl (Bal.jumpIfNot (p + a.len + 1 + b.len + 3) x)).append rfl
      (Bal.push (ins := .pushTru) x rfl rfl rfl rfl rfl (by simp) (by simp))).append rfl
      (Bal.jump (p + a.len + 1 + b.len + 3 + 1) (x + 1) x)).append rfl
      (Bal.push (ins := .pushFls) x rfl rfl rfl rfl rfl (by simp) (by simp))
    refine Bal.discharge (h.cast (by simp [Expr.code]) (by simp [Expr.depths]) rfl rfl rfl) ?_
    intro D hfit hz hN _ g hg
    simp only [Expr.length_code, Expr.len] at hz hN
    have hno : D (p + a.len + 1 + b.len + 3) = x := by
      have := hfit (a.len + 1 + b.len + 3) x (by
        simp only [Expr.depths]
        rw [List.getElem?_append_right (by simp [a.depths_length, b.depths_length]; omega)]
        simp only [List.length_append, a.depths_length, b.depths_length, List.length_singleton]
        rw [show a.len + 1 + b.len + 3 - (a.len + 1 + b.len + 1) = 2 by omega]
        rfl)
      rw [← this]; congr 1; omega
    have hend : D (p + a.len + 1 + b.len + 3 + 1) = x + 1 := by rw [← hz]; congr 1; omega
    simp only [List.append_nil, List.nil_append, List.cons_append, List.mem_cons, List.not_mem_nil,
      or_false] at hg
    rcases hg with rfl | rfl | rfl
    · exact ⟨hno, by show p + a.len + 1 + b.len + 3 < N; omega⟩
    · exact ⟨hno, by show p + a.len + 1 + b.len + 3 < N; omega⟩
    · exact ⟨hend, by show p + a.len + 1 + b.len + 3 + 1 < N; omega⟩
  | .or a b, p, x, hw => by
    simp only [Expr.wf, Bool.and_eq_true] at hw
    have h := ((((((a.bal (N := N) p x hw.1).append rfl
      (Bal.jumpIf (p + a.len + 1 + b.len + 3) x)).append (q := p + a.len + 1) (by simp [Nat.add_assoc])
      (b.bal _ x hw.2)).append rfl (Bal.jumpIf (p + a.len + 1 + b.len + 3) x)).append rfl
      (Bal.push (ins := .pushFls) x rfl rfl rfl rfl rfl (by simp) (by simp))).append rfl
      (Bal.jump (p + a.len + 1 + b.len + 3 + 1) (x + 1) x)).append rfl
      (Bal.push (ins := .pushTru) x rfl rfl rfl rfl rfl (by simp) (by simp))
    refine Bal.discharge (h.cast (by simp [Expr.code]) (by simp [Expr.depths]) rfl rfl rfl) ?_
    intro D hfit hz hN _ g hg
    simp only [Expr.length_code, Expr.len] at hz hN
    have hno : D (p + a.len + 1 + b.len + 3) = x := by
      have := hfit (a.len + 1 + b.len + 3) x (by
        simp only [Expr.depths]
        rw [List.getElem?_append_right (by simp [a.depths_length, b.depths_length]; omega)]
        simp only [List.length_append, a.depths_length, b.depths_length, List.length_singleton]
        rw [show a.len + 1 + b.len + 3 - (a.len + 1 + b.len + 1) = 2 by omega]
        rfl)
      rw [← this]; congr 1; omega
    have hend : D (p + a.len + 1 + b.len + 3 + 1) = x + 1 := by rw [← hz]; congr 1; omega
    simp only [List.append_nil, List.nil_append, List.cons_append, List.mem_cons, List.not_mem_nil,
      or_false] at hg
    rcases hg with rfl | rfl | rfl
    · exact ⟨hno, by show p + a.len + 1 + b.len + 3 < N; omega⟩
    · exact ⟨hno, by show p + a.len + 1 + b.len + 3 < N; omega⟩
    · exact ⟨hend, by show p + a.len + 1 + b.len + 3 + 1 < N; omega⟩
  | .assign t e, p, x, hw => by
    simp only [Expr.wf, Bool.and_eq_true] at hw
    exact (e.bal p x hw.2).append (by simp) (t.bal (p + e.len) x hw.1)
  | .massign t ts c, p, x, hw => by
    simp only [Expr.wf, Bool.and_eq_true] at hw
    exact (((c.bal (ts.count + 1) p x hw.2).append (by simp)
      ((ts.bal (p + c.len) (x + 1) hw.1.2).cast rfl rfl (by omega) rfl rfl)).append rfl
      (Bal.pop1 (x + 1))).append (by simp [Nat.add_assoc])
      (t.bal (p + c.len + ts.len + 1) x hw.1.1)
  | .list items, p, x, hw => by
    simp only [Expr.wf] at hw
    exact (Bal.push (ins := .pushLst items.count) x rfl rfl rfl rfl rfl (by simp) (by simp)).append rfl
      (items.balItems 0 (p + 1) x hw)
  | .map items, p, x, hw => by
    simp only [Expr.wf] at hw
    exact (Bal.push (ins := .pushMap items.count) x rfl rfl rfl rfl rfl (by simp) (by simp)).append rfl
      (items.bal (p + 1) x hw)
  | .call c, p, x, hw => by
    simp only [Expr.wf] at hw
    exact c.bal 1 p x hw
  | .select a b, p, x, hw => by
    simp only [Expr.wf, Bool.and_eq_true] at hw
    exact ((a.bal p x hw.1).append (by simp) (b.bal (p + a.len) (x + 1) hw.2)).append rfl
      (Bal.instr .select (x + 2) (Nat.le_add_left _ _)
      rfl rfl rfl (by simp) (by simp))
  | .func n f, p, x, hw => by
    simp only [Expr.wf] at hw
    exact bal_func n x (by simp) (fun y => f.bal (p + 2) y hw)
theorem Target.bal {N : Nat} : ∀ (t : Target) (p x : Nat), t.wf = true →
    Bal N p (t.code p) (t.depths (x + 1)) (x + 1) (x + 1) []
  | .var n, p, x, _ => Bal.instr (.ass n) (x + 1) (Nat.le_add_left _ _)
      rfl rfl rfl (by simp) (by simp)
  | .sel a b, p, x, hw => by
    simp only [Target.wf, Bool.and_eq_true] at hw
    exact ((a.bal p (x + 1) hw.1).append (by simp) (b.bal (p + a.len) (x + 2) hw.2)).append rfl
      (Bal.instr .insert2 (x + 3) (Nat.le_add_left _ _)
      rfl rfl rfl (by simp) (by simp))
theorem Targets.bal {N : Nat} : ∀ (t : Targets) (p x : Nat), t.wf = true →
    Bal N p (t.code p) (t.depths x) (x + t.count) (x + 1) []
  | .one t, p, x, hw => by
    simp only [Targets.wf] at hw
    exact t.bal p x hw
  | .cons t ts, p, x, hw => by
    simp only [Targets.wf, Bool.and_eq_true] at hw
    exact (((ts.bal p (x + 1) hw.2).append rfl (Bal.pop1 (x + 1))).append (by simp [Nat.add_assoc])
      (t.bal (p + ts.len + 1) x hw.1)).cast rfl rfl (by simp only [Targets.count]; omega) rfl rfl
theorem Call.bal {N : Nat} : ∀ (c : Call) (k p x : Nat), c.wf = true →
    Bal N p (c.code k p) (c.depths x) x (x + k) []
  | .fn f args, k, p, x, hw => by
    simp only [Call.wf, Bool.and_eq_true] at hw
    exact ((args.bal p x hw.2).append (by simp) (f.bal (p + args.len) (x + args.count) hw.1)).append rfl
      (Bal.instr (.call args.count k) (x + args.count + 1) (by simp only [Instr.needs]; omega)
      (by show x + k = x + args.count + 1 - (args.count + 1) + k; omega) rfl rfl (by simp) (by simp))
  | .method s i args, k, p, x, hw => by
    simp only [Call.wf, Bool.and_eq_true] at hw
    exact ((((args.bal p x hw.2).append (by simp) (s.bal (p + args.len) (x + args.count) hw.1.1)).append
      (by simp [Nat.add_assoc]) (i.bal (p + args.len + s.len) (x + args.count + 1) hw.1.2)).append rfl
      ((Bal.instr .select2 (x + args.count + 2) (y := x + args.count + 2) (Nat.le_add_left _ _)
      rfl rfl rfl (by simp) (by simp)).append rfl
      (Bal.instr (.call (args.count + 1) k) (x + args.count + 2) (by simp only [Instr.needs]; omega)
      (by show x + k = x + args.count + 2 - (args.count + 1 + 1) + k; omega) rfl rfl (by simp) (by simp))))
theorem Exprs.bal {N : Nat} : ∀ (e : Exprs) (p x : Nat), e.wf = true →
    Bal N p (e.code p) (e.depths x) x (x + e.count) []
  | .nil, p, x, _ => Bal.nil
  | .cons e es, p, x, hw => by
    simp only [Exprs.wf, Bool.and_eq_true] at hw
    exact ((e.bal p x hw.1).append (by simp) (es.bal (p + e.len) (x + 1) hw.2)).cast rfl rfl rfl
      (by simp only [Exprs.count]; omega) rfl
theorem Exprs.balItems {N : Nat} : ∀ (e : Exprs) (i p x : Nat), e.wf = true →
    Bal N p (e.codeItems i p) (e.depthsItems (x + 1)) (x + 1) (x + 1) []
  | .nil, i, p, x, _ => Bal.nil
  | .cons e es, i, p, x, hw => by
    simp only [Exprs.wf, Bool.and_eq_true] at hw
    exact ((((Bal.push (ins := .pushInt i) (x + 1) rfl rfl rfl rfl rfl (by simp) (by simp)).append rfl
      (e.bal (p + 1) (x + 2) hw.1)).append rfl
      (Bal.instr .insert (x + 3) (Nat.le_add_left _ _)
      rfl rfl rfl (by simp) (by simp))).append
      (by simp; omega) (es.balItems (i + 1) (p + 1 + e.len + 1) x hw.2))
theorem Pairs.bal {N : Nat} : ∀ (e : Pairs) (p x : Nat), e.wf = true →
    Bal N p (e.code p) (e.depths (x + 1)) (x + 1) (x + 1) []
  | .nil, p, x, _ => Bal.nil
  | .cons k v es, p, x, hw => by
    simp only [Pairs.wf, Bool.and_eq_true] at hw
    exact ((((k.bal p (x + 1) hw.1.1).append (by simp)
      (v.bal (p + k.len) (x + 2) hw.1.2)).append rfl
      (Bal.instr .insert (x + 3) (Nat.le_add_left _ _)
      rfl rfl rfl (by simp) (by simp))).append
      (by simp; omega) (es.bal (p + k.len + v.len + 1) x hw.2))
theorem FunDef.bal {N : Nat} : ∀ (f : FunDef) (p y : Nat), f.wf = true →
    Bal N p (f.code p) f.depths f.params.count y []
  | .mk ps b, p, y, hw => by
    simp only [FunDef.wf, Bool.and_eq_true] at hw
    exact ((ps.bal p hw.1).append (by simp) (b.bal none (p + ps.len) hw.2)).append rfl (Bal.ret 0 y)
theorem Params.bal {N : Nat} : ∀ (f : Params) (p : Nat), f.wf = true →
    Bal N p (f.code p) f.depths f.count 0 []
  | .nil, p, _ => Bal.nil
  | .cons n d t ps, p, hw => by
    simp only [Params.wf, Bool.and_eq_true] at hw
    exact (((d.balDflt p ps.count hw.1.1).append (by simp)
      (t.balTyp ps.count n (p + d.lenDflt) ps.count hw.1.2)).append rfl
      ((Bal.instr (.ass n) (ps.count + 1) (y := ps.count + 1) (Nat.le_add_left _ _)
      rfl rfl rfl (by simp) (by simp)).append rfl
      (Bal.pop1 ps.count))).append (by simp [Nat.add_assoc])
      (ps.bal (p + d.lenDflt + t.lenTyp + 2) hw.2)
theorem OExpr.balDflt {N : Nat} : ∀ (d : OExpr) (p x : Nat), d.wf = true →
    Bal N p (d.codeDflt p) (d.depthsDflt (x + 1)) (x + 1) (x + 1) []
  | .no, p, x, _ => Bal.nil
  | .yes e, p, x, hw => by
    simp only [OExpr.wf] at hw
    have h := (((((Bal.instr (N := N) (p := p) .pushTyp (x + 1) (y := x + 2) (Nat.le_add_left _ _)
      rfl rfl rfl (by simp) (by simp)).append rfl
      (Bal.push (ins := .pushNneTyp) (x + 2) rfl rfl rfl rfl rfl (by simp) (by simp))).append rfl
      (Bal.instr (.bin .eql) (x + 3) (y := x + 2) (Nat.le_add_left _ _)
      rfl rfl rfl (by simp) (by simp))).append rfl
      (Bal.jumpIfNot (p + 5 + e.len) (x + 1))).append rfl (Bal.pop1 x)).append rfl (e.bal (p + 5) x hw)
    refine Bal.discharge (h.cast (by simp [OExpr.codeDflt]) (by simp [OExpr.depthsDflt]) rfl rfl rfl) ?_
    intro D hfit hz hN _ g hg
    simp only [OExpr.length_codeDflt, OExpr.lenDflt] at hz hN
    simp only [List.append_nil, List.nil_append, List.mem_singleton] at hg
    subst hg
    exact ⟨by show D (p + 5 + e.len) = x + 1; rw [← hz]; congr 1; omega,
      by show p + 5 + e.len < N; omega⟩
theorem OExpr.balTyp {N : Nat} : ∀ (d : OExpr) (i : Nat) (n : Name) (p x : Nat), d.wf = true →
    Bal N p (d.codeTyp i n p) (d.depthsTyp (x + 1)) (x + 1) (x + 1) []
  | .no, i, n, p, x, _ => Bal.nil
  | .yes e, i, n, p, x, hw => by
    simp only [OExpr.wf] at hw
    exact (e.bal p (x + 1) hw).append rfl
      (Bal.instr (.checkType i n) (x + 2) (Nat.le_add_left _ _)
      rfl rfl rfl (by simp) (by simp))
theorem Stmt.bal {N : Nat} : ∀ (s : Stmt) (b : Option Nat) (p : Nat), s.wf b.isSome = true →
    Bal N p (s.code b p) s.depths 0 0 (brkAsm b)
  | .expr e, b, p, hw => by
    simp only [Stmt.wf] at hw
    exact bal_mono ((e.bal p 0 hw).append rfl (Bal.pop1 0)) (by simp)
  | .ifElse c t f, b, p, hw => by
    simp only [Stmt.wf, Bool.and_eq_true] at hw
    have h := ((((c.bal (N := N) p 0 hw.1.1).append rfl
      (Bal.jumpIfNot (p + c.len + 1 + t.len + 1) 0)).append (q := p + c.len + 1) (by simp [Nat.add_assoc])
      (t.bal b _ hw.1.2)).append rfl
      (Bal.jump (p + c.len + 1 + t.len + 1 + f.len) 0 0)).append (q := p + c.len + 1 + t.len + 1)
      (by simp; omega) (f.bal b _ hw.2)
    refine Bal.discharge (h.cast (by simp [Stmt.code]) (by simp [Stmt.depths]) rfl rfl rfl) ?_
    intro D hfit hz hN hb g hg
    simp only [Stmt.length_code, Stmt.len] at hz hN
    have hend : D (p + c.len + 1 + t.len + 1 + f.len) = 0 := by rw [← hz]; congr 1; omega
    have hno : D (p + c.len + 1 + t.len + 1) = 0 := by
      have hf2 : Fits D (p + c.len + 1 + t.len + 1) f.depths := by
        have := (Fits.append (a := c.depths 0 ++ [1] ++ t.depths ++ [0]) hfit).2
        simp only [List.length_append, c.depths_length, t.depths_length, List.length_singleton] at this
        rw [show p + (c.len + 1 + t.len + 1) = p + c.len + 1 + t.len + 1 by omega] at this
        exact this
      exact (f.bal (N := N) b _ hw.2).start D hf2 (by rw [Stmt.length_code]; exact hend)
    simp only [List.append_nil, List.nil_append, List.mem_append, List.mem_singleton] at hg
    rcases hg with ((rfl | hg) | rfl) | hg
    · exact ⟨hno, by show p + c.len + 1 + t.len + 1 < N; omega⟩
    · exact hb g hg
    · exact ⟨hend, by show p + c.len + 1 + t.len + 1 + f.len < N; omega⟩
    · exact hb g hg
  | .ifOnly c t, b, p, hw => by
    simp only [Stmt.wf, Bool.and_eq_true] at hw
    have h := ((c.bal (N := N) p 0 hw.1).append rfl
      (Bal.jumpIfNot (p + c.len + 1 + t.len) 0)).append (q := p + c.len + 1) (by simp [Nat.add_assoc])
      (t.bal b _ hw.2)
    refine Bal.discharge (h.cast (by simp [Stmt.code]) (by simp [Stmt.depths]) rfl rfl rfl) ?_
    intro D hfit hz hN hb g hg
    simp only [Stmt.length_code, Stmt.len] at hz hN
    simp only [List.append_nil, List.nil_append, List.mem_append, List.mem_singleton] at hg
    rcases hg with rfl | hg
    · exact ⟨by show D (p + c.len + 1 + t.len) = 0; rw [← hz]; congr 1; omega,
        by show p + c.len + 1 + t.len < N; omega⟩
    · exact hb g hg
  | .while c s, b, p, hw => by
    simp only [Stmt.wf, Bool.and_eq_true] at hw
    have h := (((c.bal (N := N) p 0 hw.1).append rfl
      (Bal.jumpIfNot (p + c.len + 1 + s.len + 1) 0)).append (q := p + c.len + 1) (by simp [Nat.add_assoc])
      (s.bal (some (p + c.len + 1 + s.len + 1)) _ hw.2)).append rfl (Bal.jump p 0 0)
    have hst := h.start
    refine Bal.discharge (h.cast (by simp [Stmt.code]) (by simp [Stmt.depths]) rfl rfl rfl) ?_
    intro D hfit hz hN hb g hg
    have h0 : D p = 0 := hst D hfit (by simpa [Stmt.code] using hz)
    simp only [Stmt.length_code, Stmt.len] at hz hN
    have hend : D (p + c.len + 1 + s.len + 1) = 0 := by rw [← hz]; congr 1; omega
    simp only [List.append_nil, List.nil_append, List.mem_append, List.mem_singleton, brkAsm] at hg
    rcases hg with (rfl | rfl) | rfl
    · exact ⟨hend, by show p + c.len + 1 + s.len + 1 < N; omega⟩
    · exact ⟨hend, by show p + c.len + 1 + s.len + 1 < N; omega⟩
    · exact ⟨h0, by show p < N; omega⟩
  | .doWhile s c, b, p, hw => by
    simp only [Stmt.wf, Bool.and_eq_true] at hw
    have h := ((s.bal (N := N) (some (p + s.len + c.len + 1)) p hw.1).append (by simp)
      (c.bal (p + s.len) 0 hw.2)).append rfl (Bal.jumpIf p 0)
    have hst := h.start
    refine Bal.discharge (h.cast (by simp [Stmt.code]) (by simp [Stmt.depths]) rfl rfl rfl) ?_
    intro D hfit hz hN hb g hg
    have h0 : D p = 0 := hst D hfit (by simpa [Stmt.code] using hz)
    simp only [Stmt.length_code, Stmt.len] at hz hN
    simp only [List.append_nil, List.nil_append, List.mem_append, List.mem_singleton, brkAsm] at hg
    rcases hg with rfl | rfl
    · exact ⟨by show D (p + s.len + c.len + 1) = 0; rw [← hz]; congr 1; omega,
        by show p + s.len + c.len + 1 < N; omega⟩
    · exact ⟨h0, by show p < N; omega⟩
  | .comp ss, b, p, hw => by
    simp only [Stmt.wf] at hw
    exact ss.bal b p hw
  | .ret es, b, p, hw => by
    simp only [Stmt.wf] at hw
    exact bal_mono ((es.bal p 0 hw).append rfl ((Bal.ret es.count 0).cast rfl rfl (by omega) rfl rfl))
      (by simp)
  | .func n f, b, p, hw => by
    simp only [Stmt.wf] at hw
    exact bal_mono (((bal_func n 0 (by simp) (fun y => f.bal (p + 2) y hw)).append rfl
      ((Bal.instr (.ass n) 1 (y := 1) (Nat.le_add_left _ _)
      rfl rfl rfl (by simp) (by simp)).append rfl (Bal.pop1 0))).cast
      rfl rfl rfl rfl rfl) (by simp)
  | .brk, b, p, hw => by
    cases b with
    | none => simp [Stmt.wf] at hw
    | some b => exact Bal.jump b 0 0
theorem Stmts.bal {N : Nat} : ∀ (s : Stmts) (b : Option Nat) (p : Nat), s.wf b.isSome = true →
    Bal N p (s.code b p) s.depths 0 0 (brkAsm b)
  | .nil, b, p, _ => bal_mono Bal.nil (by simp)
  | .cons s ss, b, p, hw => by
    simp only [Stmts.wf, Bool.and_eq_true] at hw
    exact bal_mono ((s.bal b p hw.1).append (by simp) (ss.bal b (p + s.len) hw.2))
      (by intro g hg; simpa using hg)
end

/-! ## Whole programs -/

/-- The depths of a program. -/
def Stmts.depthAt (s : Stmts) (i : Nat) : Nat := s.depths[i]?.getD 0

theorem compile_ok (s : Stmts) (hw : s.wf false = true) :
    s.depthAt 0 = 0 ∧ Seg s.depthAt (compile s).length 0 (compile s) := by
  have hb := s.bal (N := (compile s).length) none 0 hw
  have hl : (compile s).length = s.len + 1 := by simp [compile]
  have hfit : Fits s.depthAt 0 s.depths := by
    intro i d hd
    simp [Stmts.depthAt, hd]
  have hend : s.depthAt (0 + (s.code none 0).length) = 0 := by
    simp [Stmts.depthAt, s.depths_length]
  refine ⟨hb.start _ hfit hend, ?_⟩
  refine (hb.seg _ hfit hend (by simp [hl]) (by simp [brkAsm])).append rfl (Seg.one ?_)
  refine ⟨Nat.zero_le _, by simp [Instr.next], by simp [Instr.entry], by simp, fun _ => hend⟩

end Noja.VM
