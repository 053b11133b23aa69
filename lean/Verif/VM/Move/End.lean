import Verif.VM.Move.Memory
import Verif.VM.Book.End

/-!
# C91: the collector cannot be noticed

A run of the machine in which, between two instructions, the garbage collector may or may not do its
work, any number of times, is compared with a run in which it never does.
-/

set_option linter.unusedVariables false
set_option linter.unusedSimpArgs false

namespace Noja.VM.Move

open Noja.Graph (Obj Kind Heap Text text)
open Noja.VM.Book (All2)

variable {W : Type}

/-- At most `n` steps, with collections (run.c:1082-1106).  `b` are the builtins, which a collection
moves like everything else; `K` says what collections do. -/
inductive GRun (K : Option Ref → St W → Option Ref → St W → Prop) (F : Option Ref → Layer W) (cap : Nat) :
    Nat → Option Ref → St W → Option Ref → Status W → Prop
  | zero {b : Option Ref} {s : St W} : GRun K F cap 0 b s b (.run s)
  | step {n : Nat} {b b' : Option Ref} {s s1 : St W} {x : Status W} : step (F b) cap s = .run s1 → GRun K F cap n b s1 b' x →
      GRun K F cap (n + 1) b s b' x
  | stop {n : Nat} {b : Option Ref} {s : St W} {x : Status W} : step (F b) cap s = x → (∀ s1, x ≠ .run s1) →
      GRun K F cap (n + 1) b s b x
  | collect {n : Nat} {b b1 b' : Option Ref} {s s1 : St W} {x : Status W} : K b s b1 s1 → GRun K F cap n b1 s1 b' x →
      GRun K F cap n b s b' x

/-- At most `n` steps of the program that is executable number `e`, with collections. -/
inductive GStart (K : Option Ref → St W → Option Ref → St W → Prop) (F : Option Ref → Layer W) (cap e n : Nat) (b : Option Ref)
    (s : St W) : Option Ref → Status W → Prop
  | run {s1 : St W} {b' : Option Ref} {x : Status W} : VM.boot (F b) cap e s = .run s1 → GRun K F cap n b s1 b' x →
      GStart K F cap e n b s b' x
  | stop {x : Status W} : VM.boot (F b) cap e s = x → (∀ s1, x ≠ .run s1) → GStart K F cap e n b s b x

/-- Layers that differ in their builtins only and that do not care where objects are. -/
def Family (X : (Ref → Ref → Prop) → Nat → W → W → Prop) (F : Option Ref → Layer W) : Prop :=
  ∀ ρ N b b', Ren ρ N → statics.length ≤ N → Opt2 ρ b b' → LayR (X ρ N) ρ (F b) (F b')

/-- Collections that only give other names. -/
def Harmless (X : (Ref → Ref → Prop) → Nat → W → W → Prop) (K : Option Ref → St W → Option Ref → St W → Prop) : Prop :=
  ∀ ρ N b0 b b' s0 s s', K b s b' s' → Ren ρ N → StR (X ρ N) ρ s0 s → Opt2 ρ b0 b →
    ∃ ρ' N', Ren ρ' N' ∧ statics.length ≤ N' ∧ StR (X ρ' N') ρ' s0 s' ∧ Opt2 ρ' b0 b'

section

variable {X : (Ref → Ref → Prop) → Nat → W → W → Prop} {F : Option Ref → Layer W} {K : Option Ref → St W → Option Ref → St W → Prop}
  {ρ : Ref → Ref → Prop} {N : Nat}

theorem grun_rel (hF : Family X F) (hK : Harmless X K) {cap n : Nat} {b b' : Option Ref} {s : St W} {x : Status W}
    (h : GRun K F cap n b s b' x) : ∀ {ρ : Ref → Ref → Prop} {N : Nat} {b0 : Option Ref} {s0 : St W}, Ren ρ N →
      statics.length ≤ N → StR (X ρ N) ρ s0 s → Opt2 ρ b0 b →
      ∃ ρ' N', Ren ρ' N' ∧ statics.length ≤ N' ∧ StatusR (X ρ' N') ρ' (runN (F b0) cap n s0) x ∧ Opt2 ρ' b0 b' := by
  induction h with
  | zero =>
    intro ρ N b0 s0 R hN hs hb
    exact ⟨ρ, N, R, hN, hs, hb⟩
  | @step n b b' s s1 x h1 _ ih =>
    intro ρ N b0 s0 R hN hs hb
    have hp := step_rel R (hF ρ N b0 b R hN hb) cap hs
    rw [h1] at hp
    unfold runN
    revert hp
    cases step (F b0) cap s0 with
    | run t => exact fun hp => ih R hN hp hb
    | _ => exact fun hp => hp.elim
  | @stop n b s x h1 h2 =>
    intro ρ N b0 s0 R hN hs hb
    have hp := step_rel R (hF ρ N b0 b R hN hb) cap hs
    rw [h1] at hp
    refine ⟨ρ, N, R, hN, ?_, hb⟩
    unfold runN
    revert hp
    cases step (F b0) cap s0 with
    | run t =>
      cases x with
      | run u => exact absurd rfl (h2 u)
      | _ => exact fun hp => hp.elim
    | _ => exact fun hp => hp
  | @collect n b b1 b' s s1 x h1 _ ih =>
    intro ρ N b0 s0 R hN hs hb
    obtain ⟨ρ', N', R', hN', hs', hb'⟩ := hK ρ N b0 b b1 s0 s s1 h1 R hs hb
    exact ih R' hN' hs' hb'

theorem gstart_rel (hF : Family X F) (hK : Harmless X K) {cap e n : Nat} {b b' b0 : Option Ref} {s s0 : St W} {x : Status W}
    (h : GStart K F cap e n b s b' x) (R : Ren ρ N) (hN : statics.length ≤ N) (hs : StR (X ρ N) ρ s0 s) (hb : Opt2 ρ b0 b) :
    ∃ ρ' N', Ren ρ' N' ∧ statics.length ≤ N' ∧ StatusR (X ρ' N') ρ' (start (F b0) cap e s0 n) x ∧ Opt2 ρ' b0 b' := by
  have hp : StatusR (X ρ N) ρ (VM.boot (F b0) cap e s0) (VM.boot (F b) cap e s) :=
    enter_rel (hF ρ N b0 b R hN hb) cap e 0 (c := none) (d := none) trivial 0 (l := []) (k := []) trivial hs
  cases h with
  | run h1 h2 =>
    rw [h1] at hp
    unfold start
    revert hp
    cases VM.boot (F b0) cap e s0 with
    | run t => exact fun hp => grun_rel hF hK h2 R hN hp hb
    | _ => exact fun hp => hp.elim
  | stop h1 h2 =>
    rw [h1] at hp
    refine ⟨ρ, N, R, hN, ?_, hb⟩
    unfold start
    revert hp
    cases VM.boot (F b0) cap e s0 with
    | run t =>
      cases x with
      | run u => exact absurd rfl (h2 u)
      | _ => exact fun hp => hp.elim
    | _ => exact fun hp => hp

end

/-- A family of configurations that differ in their builtins only and that do not care where objects are. -/
def Moving (C : Option Ref → Config) : Prop :=
  ∀ ρ N b b', Ren ρ N → statics.length ≤ N → Opt2 ρ b b' → CR ρ N (C b) (C b')

variable {C : Option Ref → Config} {ρ : Ref → Ref → Prop} {N : Nat}

theorem Moving.family (hC : Moving C) : Family WR (fun b => objects (C b)) :=
  fun ρ N b b' R hN hb => objects_rel R hN (hC ρ N b b' R hN hb)

theorem collects_harmless : Harmless WR Collects := fun ρ N b0 b b' s0 s s' hc R h hb => collects_rel hc R h hb

/-! ## Every state is itself under its own names -/

/-- Only closures have the contents of closures, and only functions those of functions. -/
def Clean (w : World) : Prop :=
  (∀ r p, w.clos r = some p → w.heap[r]? = some (.opaque .closure)) ∧ ∀ r p, w.fclo r = some p → w.heap[r]? = some (.opaque .func)

theorem ren_eq (n : Nat) : Ren Eq n := ⟨fun a b b' h h' => h ▸ h', fun a a' b h h' => h ▸ h'.symm, fun _ _ => rfl, fun _ _ => rfl⟩

theorem all2_eq {α : Type} : ∀ l : List α, All2 Eq l l
  | [] => trivial
  | _ :: l => ⟨rfl, all2_eq l⟩

theorem all2_pair : ∀ l : List (Ref × Ref), All2 (Pair2 Eq) l l
  | [] => trivial
  | _ :: l => ⟨⟨rfl, rfl⟩, all2_pair l⟩

theorem obj_eq (o : Obj) : ObjR Eq o o := by
  cases o with
  | list l => exact .list (all2_eq l)
  | map l => exact .map (all2_pair l)
  | nullable a => exact .nullable rfl
  | sum a b => exact .sum rfl rfl
  | type k => exact .type k
  | none => exact .none
  | bool k => exact .bool k
  | int k => exact .int k
  | float k => exact .float k
  | str k => exact .str k
  | buffer k => exact .buffer k
  | any => exact .any
  | «opaque» k => exact .opaque k

theorem opt_eq {α : Type} {R : α → α → Prop} (hR : ∀ a, R a a) (x : Option α) : Opt2 R x x := by
  cases x with
  | none => trivial
  | some a => exact hR a

theorem world_eq {w : World} (h : Clean w) : WR Eq w.heap.length w w where
  heap := ⟨rfl, Nat.le_refl _, fun a b e => by subst e; exact opt_eq obj_eq _⟩
  err := rfl
  clos a b e := by subst e; exact opt_eq (fun x => ⟨opt_eq (fun _ => rfl) _, rfl⟩) _
  fclo a b e := by subst e; exact opt_eq (fun _ => rfl) _
  nat a b e := by subst e; rfl
  tab a b e := by subst e; rfl
  out := rfl
  closed := h.1
  fclosed := h.2

theorem frames_eq : ∀ l : List Frame, All2 (FrR Eq) l l
  | [] => trivial
  | .normal f :: l => ⟨⟨rfl, rfl, rfl, opt_eq (fun _ => rfl) _, rfl, rfl⟩, frames_eq l⟩
  | .native k :: l => ⟨rfl, frames_eq l⟩

theorem state_eq {s : St World} (h : Clean s.w) : StR (WR Eq s.w.heap.length) Eq s s where
  w := world_eq h
  funcs a b e := by subst e; rfl
  exes := rfl
  stack := all2_eq _
  frames := frames_eq _

theorem statics_le (w : World) : statics.length ≤ w.heap.length := by
  rw [heap_length]
  exact Nat.le_add_right _ _

/-! ## What can be seen -/

/-- The text of an object. -/
def shown (fmt : BitVec 64 → Text) (w : World) (r : Ref) : Exec Text :=
  (Graph.print fmt w.heap (w.heap.length + 1) (fun _ => false) r) >>= fun x => .ok x.1

/-- Two runs that cannot be told apart: both go on, both end with results of which there are as many
and which look alike and are of the same types, both report an error, both report that a limit was met,
or both do something undefined; and both have written the same. -/
def Alike (fmt : BitVec 64 → Text) : Status World → Status World → Prop
  | .run s, .run t => s.w.out = t.w.out
  | .done l s, .done k t => s.w.out = t.w.out ∧ l.map (shown fmt s.w) = k.map (shown fmt t.w) ∧
      l.map (fun r => (s.w.heap[r]?).map Obj.kind) = k.map (fun r => (t.w.heap[r]?).map Obj.kind)
  | .err s, .err t => s.w.out = t.w.out
  | .limit s, .limit t => s.w.out = t.w.out
  | .ub, .ub => True
  | _, _ => False

theorem map_rel {α β γ : Type} {R : α → β → Prop} {f : α → γ} {g : β → γ} (h : ∀ a b, R a b → f a = g b) :
    ∀ {l : List α} {k : List β}, All2 R l k → l.map f = k.map g
  | [], [], _ => rfl
  | a :: l, b :: k, hl => by
    rw [List.map_cons, List.map_cons, h a b hl.1, map_rel h hl.2]

theorem alike_of (fmt : BitVec 64 → Text) (R : Ren ρ N) {x y : Status World} (h : StatusR (WR ρ N) ρ x y) : Alike fmt x y := by
  cases x <;> cases y <;> first | exact h.elim | exact h.w.out | trivial | skip
  refine ⟨h.2.w.out, map_rel (fun a b r => ?_) h.1, map_rel (fun a b r => ?_) h.1⟩
  · refine ExR.toEq ?_
    unfold shown
    rw [h.2.w.heap.len]
    refine (print_rel R fmt h.2.w.heap _ _ _ a b (fun _ _ _ => rfl) r).bind fun p q hpq => ?_
    exact hpq.1
  · rcases h.2.w.obj r with ⟨h1, h2⟩ | ⟨o, o', h1, h2, ho⟩
    · rw [h1, h2]
    · rw [h1, h2]
      exact congrArg some ho.kind

/-- C91, for the machine: whatever the collector does between instructions, as long as its collections
succeed, the run cannot be told apart from the run without any collection. -/
theorem C91_machine_partial (hC : Moving C) (fmt : BitVec 64 → Text) {cap n : Nat} {b b' : Option Ref} {s : St World} {x : Status World}
    (hs : Clean s.w) (h : GRun Collects (fun b => objects (C b)) cap n b s b' x) : Alike fmt (runN (objects (C b)) cap n s) x := by
  obtain ⟨ρ', N', R', -, h', -⟩ := grun_rel hC.family collects_harmless h (ren_eq _) (statics_le s.w) (state_eq hs) (opt_eq (fun _ => rfl) b)
  exact alike_of fmt R' h'

/-! ## The interpreter -/

/-- The configuration of the interpreter with other builtins. -/
def conf (fl : Book.Floats) (b : Option Ref) : Config := std (Book.printing fl { Start.base with builtins := b })

theorem conf_moving (fl : Book.Floats) : Moving (conf fl) := by
  intro ρ N b b' R hN hb
  refine std_rel R hN ?_
  exact
    { hit := fun _ _ _ _ _ _ => rfl
      arith := rfl
      fuel := rfl
      builtins := hb
      slot := fun t n => trivial
      native := by
        intro id a a' w v ha hw
        show OutR (WR ρ N) (NResR ρ) (((Book.known fl id).getD fun _ w => .ok w (.done [])) a w)
          (((Book.known fl id).getD fun _ w => .ok w (.done [])) a' v)
        cases hk : Book.known fl id with
        | none => exact ⟨hw, (trivial : All2 ρ [] [])⟩
        | some f =>
          rcases Book.known_cases hk with rfl | ⟨g, rfl⟩
          · exact printNative_rel R fl.write ha hw
          · exact onArgs_rel R g ha hw
      selectX := fun o o' k k' w v ho hk hw => ⟨hw.withErr rfl, trivial⟩
      insertX := fun o o' a a' b b' c c' w v _ _ _ _ _ _ hw => hw }

/-- The interpreter in its whole life: it runs `start.noja`, makes its result the innermost of the
builtins (runtime.c:92-110) and runs a program, at most `m` steps of it; there are collections. -/
def Session (fl : Book.Floats) (cap n m : Nat) (code : List Instr) (x : Status World) : Prop :=
  ∃ r u b b', GStart Collects (fun b => objects (conf fl b)) cap 0 n (some 21)
      ⟨Start.world, fun _ => none, [compile Start.prog], [], []⟩ b (.done [r] u) ∧
    GStart Collects (fun b => objects (conf fl b)) cap u.exes.length m (some (newClosure b r u.w).2)
      ⟨(newClosure b r u.w).1, u.funcs, u.exes ++ [code], [], []⟩ b' x

theorem plug_conf (B : Config) (m : Ref) (s : SSt World) :
    (Start.plug B m s).1 = { B with builtins := some (newClosure B.builtins m s.w).2 } := rfl

theorem world_clean : Clean Start.world := ⟨nofun, nofun⟩

theorem session_rel (fl : Book.Floats) {cap n m : Nat} {code : List Instr} {x : Status World} (h : Session fl cap n m code x) :
    ∃ vs u, Book.boot fl cap n = .done vs u ∧ ∃ ρ N, Ren ρ N ∧ StatusR (WR ρ N) ρ (Book.client fl cap u code m) x := by
  obtain ⟨r, u, b, b', h1, h2⟩ := h
  obtain ⟨ρ, N, R, hN, h3, hb⟩ := gstart_rel (conf_moving fl).family collects_harmless h1 (ren_eq _) (statics_le Start.world)
    (state_eq (s := ⟨Start.world, fun _ => none, [compile Start.prog], [], []⟩) world_clean) (opt_eq (fun _ => rfl) _)
  have h3 : StatusR (WR ρ N) ρ (Book.boot fl cap n) (.done [r] u) := h3
  cases hboot : Book.boot fl cap n with
  | done vs u0 =>
    rw [hboot] at h3
    obtain ⟨rfl, hw, -⟩ := Book.boot_result fl hboot
    refine ⟨_, _, rfl, ?_⟩
    obtain ⟨hr, hs⟩ := h3
    have hr : ρ 92 r := hr.1
    obtain ⟨c1, c2⟩ := newClosure_rel R hs.w hb hr
    have hcfg : Book.client fl cap u0 code m = start (objects (conf fl (some (newClosure (some 21) 92 u0.w).2))) cap u0.exes.length
        ⟨(newClosure (some 21) 92 u0.w).1, u0.funcs, u0.exes ++ [code], [], []⟩ m := by
      unfold Book.client conf Start.config
      rw [plug_conf, ← hw]
      rfl
    rw [hcfg]
    have hst : StR (WR ρ N) ρ ⟨(newClosure (some 21) 92 u0.w).1, u0.funcs, u0.exes ++ [code], [], []⟩
        ⟨(newClosure b r u.w).1, u.funcs, u.exes ++ [code], [], []⟩ :=
      ⟨c1, hs.funcs, by show u0.exes ++ [code] = u.exes ++ [code]; rw [hs.exes], trivial, trivial⟩
    have hb2 : Opt2 ρ (some (newClosure (some 21) 92 u0.w).2) (some (newClosure b r u.w).2) := c2
    have he : u0.exes.length = u.exes.length := by rw [hs.exes]
    rw [he]
    obtain ⟨ρ', N', R', -, h', -⟩ := gstart_rel (conf_moving fl).family collects_harmless h2 R hN hst hb2
    exact ⟨ρ', N', R', h'⟩
  | _ => rw [hboot] at h3; exact h3.elim

/-- C91: in its whole life the interpreter does what it would do if it never collected any garbage. -/
theorem C91_partial (fl : Book.Floats) {cap n m : Nat} {code : List Instr} {x : Status World} (h : Session fl cap n m code x) :
    ∃ vs u, Book.boot fl cap n = .done vs u ∧ Alike fl.write (Book.client fl cap u code m) x := by
  obtain ⟨vs, u, h1, ρ, N, R, h2⟩ := session_rel fl h
  exact ⟨vs, u, h1, alike_of fl.write R h2⟩

/-- How a run ends according to the book. -/
def EndsLike : Book.R (Option (List Book.Val)) → Status World → Prop
  | .ok σ _, x => ∃ rs u, x = .done rs u ∧ u.w.out = σ.out
  | .err o, x => ∃ u, x = .err u ∧ u.w.out = o
  | .off, _ => True
  | .more, _ => True

/-- C90 and C91: with collections, too, a program that ends does what the book says, unless it meets a
limit. -/
theorem C91_book_partial (fl : Book.Floats) {cap n m : Nat} {x : Status World} (p : Stmts) (hp : p.wf false = true)
    (h : Session fl cap n m (compile p) x) (hx : ∀ t, x ≠ .run t) (fuel : Nat) :
    (∃ t, x = .limit t) ∨ EndsLike (Book.run fuel p) x := by
  obtain ⟨vs, u, h1, h2⟩ := C91_partial fl h
  have hk : ∀ t, Book.client fl cap u (compile p) m ≠ .run t := by
    intro t q
    rw [q] at h2
    cases x with
    | run t' => exact hx t' rfl
    | _ => exact h2
  rcases Book.C90_program_partial fl h1 p hp fuel with ⟨k, t, hl⟩ | ⟨ha, -⟩
  · refine .inl ?_
    have e : Book.client fl cap u (compile p) m = .limit t := start_stable rfl hl hk nofun
    rw [e] at h2
    cases x with
    | limit t' => exact ⟨t', rfl⟩
    | _ => exact h2.elim
  · refine .inr ?_
    cases hr : Book.run fuel p with
    | ok σ o =>
      rw [hr] at ha
      have : ∃ rs v, (∃ k, Book.client fl cap u (compile p) k = .done rs v) ∧ v.w.out = σ.out := by
        cases o with
        | some vs =>
          obtain ⟨rs, v, q1, q2, -⟩ := ha
          exact ⟨rs, v, q1, q2⟩
        | none =>
          obtain ⟨r, v, q1, q2⟩ := ha
          exact ⟨[r], v, q1, q2⟩
      obtain ⟨rs, v, ⟨k, q1⟩, q2⟩ := this
      have e : Book.client fl cap u (compile p) m = .done rs v := start_stable rfl q1 hk nofun
      rw [e] at h2
      cases x with
      | done rs' v' => exact ⟨rs', v', rfl, h2.1.symm.trans q2⟩
      | _ => exact h2.elim
    | err o =>
      rw [hr] at ha
      obtain ⟨v, ⟨k, q1⟩, q2⟩ := ha
      have e : Book.client fl cap u (compile p) m = .err v := start_stable rfl q1 hk nofun
      rw [e] at h2
      cases x with
      | err v' => exact ⟨v', rfl, h2.symm.trans q2⟩
      | _ => exact h2.elim
    | off => trivial
    | more => trivial

/-! ## There are such runs -/

theorem sum_le (f : Nat → Nat) : ∀ (n : Nat) (l : List Nat), l.Nodup → (∀ a ∈ l, a < n) → (l.map f).sum ≤ ((List.range n).map f).sum
  | 0, l, _, h => by
    match l, h with
    | [], _ => exact Nat.le_refl _
    | a :: l, h => exact absurd (h a (List.mem_cons_self ..)) (Nat.not_lt_zero a)
  | n + 1, l, hd, h => by
    rw [List.range_succ, List.map_append, List.sum_append]
    by_cases hn : n ∈ l
    · have hp := List.perm_cons_erase hn
      rw [(hp.map f).sum_nat, List.map_cons, List.sum_cons]
      have := sum_le f n (l.erase n) (hd.erase n) fun a ha => by
        have h1 := h a (List.mem_of_mem_erase ha)
        have h2 : a ≠ n := fun q => by
          subst q
          exact (List.Nodup.not_mem_erase hd) ha
        omega
      simp only [List.map_cons, List.map_nil, List.sum_cons, List.sum_nil]
      omega
    · have := sum_le f n l hd fun a ha => by
        have h1 := h a ha
        have h2 : a ≠ n := fun q => hn (q ▸ ha)
        omega
      omega

/-- In every state the collector can do its work, if there is enough memory. -/
theorem collects_exists (b : Option Ref) (s : St World) : ∃ b' s', Collects b s b' s' := by
  let S : Shape := ⟨fun _ => 0, fun _ => 0, fun _ => [], fun _ => 0, fun r => match s.w.heap[r]? with
    | some (.str x) => [x.body.length + 1]
    | _ => []⟩
  have hroom : ∀ (a : Nat) (o : Gc.Obj) (rooms : List Nat), (gheap S s.w)[a]? = some (o, rooms) → Gc.RoomOk o.exts rooms := by
    intro a o rooms h
    rw [gheap_get] at h
    cases hd : s.w.dyn[a]? with
    | none => rw [hd] at h; cases h
    | some x =>
      rw [hd] at h
      cases h
      show Gc.RoomOk (gobj S s.w (statics.length + a) x).exts (match s.w.heap[statics.length + a]? with
        | some (.str x) => [x.body.length + 1]
        | _ => [])
      rw [heap_dyn, hd]
      cases x with
      | «opaque» k =>
        cases k with
        | closure =>
          unfold gobj
          dsimp only
          cases s.w.clos (statics.length + a) <;> trivial
        | _ => trivial
      | str t => exact ⟨Nat.le_refl _, trivial⟩
      | list l => exact ⟨Nat.le_refl _, trivial⟩
      | map l => exact ⟨Nat.le_refl 0, (by decide : 8 * Gc.mapCapacity 0 ≤ 0), (by decide : 8 * Gc.mapCapacity 0 ≤ 0), trivial⟩
      | _ => trivial
  have hv := valid S b s
  obtain ⟨rs, g, e, hf, -⟩ := Gc.after hv (fun a _ => hroom a) ((List.range (gheap S s.w).length).map (Gc.costOf (gheap S s.w))).sum
    ((gheap S s.w).length + 1) (Nat.lt_succ_self _)
  have hf := (hf fun l hd hl => sum_le _ _ l hd fun a ha => by
    obtain ⟨o, rooms, ho, -⟩ := (Gc.reach_closed hv).obj a (hl a ha)
    exact (List.getElem?_eq_some_iff.1 ho).1).1
  exact ⟨_, _, S, _, _, rs, g, fun a _ => hroom a, Nat.lt_succ_self _, e, hf, rfl, rfl⟩

/-- The machine can be run with a collection after every instruction. -/
theorem grun_exists {K : Option Ref → St W → Option Ref → St W → Prop} (hK : ∀ b s, ∃ b' s', K b s b' s') (F : Option Ref → Layer W)
    (cap : Nat) : ∀ (n : Nat) (b : Option Ref) (s : St W), ∃ b' x, GRun K F cap n b s b' x
  | 0, b, s => ⟨b, .run s, .zero⟩
  | n + 1, b, s => by
    cases h : step (F b) cap s with
    | run s1 =>
      obtain ⟨b2, s2, hc⟩ := hK b s1
      obtain ⟨b', x, hx⟩ := grun_exists hK F cap n b2 s2
      exact ⟨b', x, .step h (.collect hc hx)⟩
    | _ => exact ⟨b, _, .stop h nofun⟩

/-- A state with a list, its item and an integer that nothing refers to. -/
def demo : St World where
  w := ⟨[.int 5, .list [23], .int 7], false, fun _ => none, fun _ => none, fun _ => none, fun _ => 0, []⟩
  funcs _ := none
  exes := [[.pushInt 3, .exit]]
  stack := [22]
  frames := [.normal ⟨0, 0, 22, none, 1, 0⟩]

def demoShape : Shape := ⟨fun _ => 4, fun _ => 0, fun _ => [], fun _ => 0, fun r => if r = 22 then [64] else []⟩

/-- The collection of the example: the list is moved to the place of the dead integer. -/
example : Collects none demo none (movedState (fun a => if a = 2 then some 1 else if a = 1 then some 0 else none) demo) ∧
    (movedState (fun a => if a = 2 then some 1 else if a = 1 then some 0 else none) demo).stack = [21] ∧
    (movedState (fun a => if a = 2 then some 1 else if a = 1 then some 0 else none) demo).w.dyn = [.list [22], .int 7, .none] := by
  refine ⟨?_, rfl, rfl⟩
  have hg : ∃ rs g, Gc.collectAll (gheap demoShape demo.w) 4 (roots none demo) (Gc.start 200) = .ok (rs, g) ∧ g.failed = false ∧
      g.fwd = fun a => if a = 2 then some 1 else if a = 1 then some 0 else none := ⟨_, _, rfl, rfl, rfl⟩
  obtain ⟨rs, g, e, hf, hw⟩ := hg
  refine ⟨demoShape, 200, 4, rs, g, ?_, by decide, e, hf, rfl, by rw [hw]⟩
  intro a _ o rooms h
  match a, h with
  | 0, h => cases h; trivial
  | 1, h => cases h; exact ⟨by show 16 * 4 ≤ 64; omega, trivial⟩
  | 2, h => cases h; trivial
  | a + 3, h => cases h

theorem demo_clean : Clean demo.w := ⟨nofun, nofun⟩

/-- `C91_machine_partial` speaks of runs with collections in this state. -/
example : ∃ b' x, GRun Collects (fun b => objects (conf Book.toy b)) 1024 2 none demo b' x ∧
    Alike Book.toy.write (runN (objects (conf Book.toy none)) 1024 2 demo) x := by
  obtain ⟨b', x, h⟩ := grun_exists collects_exists (fun b => objects (conf Book.toy b)) 1024 2 none demo
  exact ⟨b', x, h, C91_machine_partial (conf_moving _) _ demo_clean h⟩

theorem gstart_exists {K : Option Ref → St W → Option Ref → St W → Prop} (hK : ∀ b s, ∃ b' s', K b s b' s') (F : Option Ref → Layer W)
    (cap e n : Nat) (b : Option Ref) (s : St W) : ∃ b' x, GStart K F cap e n b s b' x := by
  cases h : VM.boot (F b) cap e s with
  | run s1 =>
    obtain ⟨b', x, hx⟩ := grun_exists hK F cap n b s1
    exact ⟨b', x, .run h hx⟩
  | _ => exact ⟨b, _, .stop h nofun⟩

/-- Every program can be run by an interpreter that collects garbage after every instruction. -/
theorem session_exists (fl : Book.Floats) {cap n : Nat} {vs : List Ref} {u : St World} (h : Book.boot fl cap n = .done vs u)
    (code : List Instr) (m : Nat) : ∃ x, Session fl cap n m code x := by
  obtain ⟨b, x, h1⟩ := gstart_exists collects_exists (fun b => objects (conf fl b)) cap 0 n (some 21)
    ⟨Start.world, fun _ => none, [compile Start.prog], [], []⟩
  obtain ⟨ρ, N, -, -, h3, -⟩ := gstart_rel (conf_moving fl).family collects_harmless h1 (ren_eq _) (statics_le Start.world)
    (state_eq (s := ⟨Start.world, fun _ => none, [compile Start.prog], [], []⟩) world_clean) (opt_eq (fun _ => rfl) _)
  have h3 : StatusR (WR ρ N) ρ (Book.boot fl cap n) x := h3
  rw [h] at h3
  obtain ⟨rfl, -⟩ := Book.boot_result fl h
  cases x with
  | done l u' =>
    match l, h3 with
    | [r], h3 =>
      obtain ⟨b', x, h2⟩ := gstart_exists collects_exists (fun b => objects (conf fl b)) cap u'.exes.length m (some (newClosure b r u'.w).2)
        ⟨(newClosure b r u'.w).1, u'.funcs, u'.exes ++ [code], [], []⟩
      exact ⟨x, r, u', b, b', h1, h2⟩
    | [], h3 => exact h3.1.elim
    | _ :: _ :: _, h3 => exact h3.1.2.elim
  | _ => exact h3.elim

/-! ## The sizes of lists -/

/-- C91, in full: a collection, in whatever state and wherever objects and their extensions are, is defined and, if
it succeeds, cannot be noticed. -/
def C91Statement : Prop :=
  ∀ (fl : Book.Floats) (S : Shape) (b : Option Ref) (s : St World) (size n : Nat), Clean s.w → (gheap S s.w).length < n →
    (∀ a, Gc.Reach (gheap S s.w) (roots b s) a → ∀ o rooms, (gheap S s.w)[a]? = some (o, rooms) → Gc.RoomOk o.allocated rooms) →
    ∃ rs g, Gc.collectAll (gheap S s.w) n (roots b s) (Gc.start size) = .ok (rs, g) ∧
      (g.failed = false → ∀ cap k b' x,
        GRun Collects (fun b => objects (conf fl b)) cap k (b.map (fwdRef s.w.heap.length g.fwd)) (movedState g.fwd s) b' x →
          Alike fl.write (runN (objects (conf fl b)) cap k s) x)

/-- The same list, its items being in a block of overflow memory of their own. -/
def tightShape : Shape := { demoShape with rooms := fun r => if r = 22 then [32] else [] }

/-- C91 does not hold: o_list.c:201 makes the collector copy twice as many bytes as the items of a list have. -/
theorem C91_violated : ¬ C91Statement := by
  intro h
  obtain ⟨rs, g, e, -⟩ := h Book.toy tightShape none demo 200 4 demo_clean (by decide) (by
    intro a _ o rooms h
    match a, h with
    | 0, h => cases h; trivial
    | 1, h => cases h; exact ⟨by show 8 * 4 ≤ 32; omega, trivial⟩
    | 2, h => cases h; trivial
    | a + 3, h => cases h)
  have : Gc.collectAll (gheap tightShape demo.w) 4 (roots none demo) (Gc.start 200) = .ub := rfl
  rw [this] at e
  cases e

end Noja.VM.Move
