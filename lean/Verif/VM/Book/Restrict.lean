import Verif.VM.Book.Sem

/-!
# What the book says under a condition is what it says

`runIf_run`: a run that is described under a condition on keys is the run that is described without it.
-/

set_option linter.unusedVariables false
set_option linter.unusedSimpArgs false

namespace Noja.VM.Book

/-- `y` does what `x` does, if the book says what `x` does. -/
def Within {α : Type} (x y : B α) : Prop := ∀ σ, x σ = .off ∨ x σ = y σ

section
variable {α β : Type}

theorem Within.refl (x : B α) : Within x x := fun _ => .inr rfl

theorem Within.leave (y : B α) : Within leave y := fun _ => .inl rfl

theorem Within.bind {x y : B α} {f g : α → B β} (h : Within x y) (hf : ∀ a, Within (f a) (g a)) :
    Within (x >>= f) (y >>= g) := by
  intro σ
  show B.bind x f σ = .off ∨ B.bind x f σ = B.bind y g σ
  unfold B.bind
  rcases h σ with h | h
  · rw [h]; exact .inl rfl
  · rw [← h]
    cases x σ with
    | ok σ' a => exact hf a σ'
    | _ => exact .inr rfl

theorem Within.ite {c : Prop} [Decidable c] {x y u v : B α} (h : Within x u) (k : Within y v) :
    Within (if c then x else y) (if c then u else v) := by
  by_cases q : c
  · rw [if_pos q, if_pos q]; exact h
  · rw [if_neg q, if_neg q]; exact k

theorem whileLoop_within {c c' : B Bool} {b b' : B Ctl} (hc : Within c c') (hb : Within b b') :
    ∀ n, Within (whileLoop n c b) (whileLoop n c' b')
  | 0 => .refl _
  | n + 1 => by
    unfold whileLoop
    refine .bind hc fun t => .ite (.bind hb fun r => ?_) (.refl _)
    cases r with
    | normal => exact whileLoop_within hc hb n
    | brk => exact .refl _
    | ret vs => exact .refl _

theorem doLoop_within {c c' : B Bool} {b b' : B Ctl} (hc : Within c c') (hb : Within b b') :
    ∀ n, Within (doLoop n c b) (doLoop n c' b')
  | 0 => .refl _
  | n + 1 => by
    unfold doLoop
    refine .bind hb fun r => ?_
    cases r with
    | normal => exact .bind hc fun t => .ite (doLoop_within hc hb n) (.refl _)
    | brk => exact .refl _
    | ret vs => exact .refl _

end

structure Under (c c' : Ctx) : Prop where
  fuel : c.fuel = c'.fuel
  scope : c.scope = c'.scope
  chain : c.chain = c'.chain
  lib : c.lib = c'.lib
  fine : ∀ ks, c.fine ks = true → c'.fine ks = true
  call : ∀ v vs k, Within (c.call v vs k) (c'.call v vs k)

theorem writeVar_within {fine fine' : List Key → Bool} (h : ∀ ks, fine ks = true → fine' ks = true) (a : Nat) (n : Name)
    (v : Val) : Within (writeVar fine a n v) (writeVar fine' a n v) := by
  intro σ
  unfold writeVar
  by_cases hn : goodName n = true
  · rw [if_pos hn, if_pos hn]
    split
    · rename_i env _
      cases hf : fine (namesIn env) with
      | false => exact .inl rfl
      | true =>
        rw [h _ hf]
        exact .inr rfl
    · exact .inr rfl
  · rw [if_neg hn]; exact .inl rfl

theorem insert_within {fine fine' : List Key → Bool} (h : ∀ ks, fine ks = true → fine' ks = true) (x k v : Val) :
    Within (insert fine x k v) (insert fine' x k v) := by
  intro σ
  unfold insert
  split
  · rename_i a
    split
    · exact .inr rfl
    · rename_i es _
      cases hf : fine (keysIn es) with
      | false => rw [Bool.and_false]; exact .inl rfl
      | true =>
        rw [h _ hf]
        exact .inr rfl
    · exact .inr rfl
    · exact .inr rfl
  · exact .inr rfl

theorem orDefault_within (v : Val) {d d' : Option (B Val)}
    (h : match d, d' with | none, none => True | some d, some d' => Within d d' | _, _ => False) :
    Within (orDefault v d) (orDefault v d') := by
  cases d with
  | none => cases d' with
    | none => exact .refl _
    | some _ => exact h.elim
  | some d => cases d' with
    | none => exact h.elim
    | some d' => cases v with
      | none => exact h
      | _ => exact .refl _

theorem checkType_within (v : Val) {d d' : Option (B Val)}
    (h : match d, d' with | none, none => True | some d, some d' => Within d d' | _, _ => False) :
    Within (checkType v d) (checkType v d') := by
  cases d with
  | none => cases d' with
    | none => exact .refl _
    | some _ => exact h.elim
  | some d => cases d' with
    | none => exact h.elim
    | some d' => exact .bind h fun _ => .refl _

section
variable [Floats] {c c' : Ctx}

mutual
theorem expr_within (h : Under c c') : ∀ x : Expr, Within (expr c x) (expr c' x)
  | .none => by simp only [expr]; exact .refl _
  | .tru => by simp only [expr]; exact .refl _
  | .fls => by simp only [expr]; exact .refl _
  | .int v => by simp only [expr]; exact .refl _
  | .float v => by simp only [expr]; exact .refl _
  | .str s => by unfold expr; exact .refl _
  | .ident n => by simp only [expr, h.scope, h.chain, h.lib]; exact .refl _
  | .un op a => by simp only [expr]; exact .bind (expr_within h a) fun _ => .refl _
  | .bin op a b => by simp only [expr]; exact .bind (expr_within h a) fun _ => .bind (expr_within h b) fun _ => .refl _
  | .and a b => by
    simp only [expr]
    exact .bind (expr_within h a) fun _ => .bind (.refl _) fun _ => .ite (.bind (expr_within h b) fun _ => .refl _) (.refl _)
  | .or a b => by
    simp only [expr]
    exact .bind (expr_within h a) fun _ => .bind (.refl _) fun _ => .ite (.refl _) (.bind (expr_within h b) fun _ => .refl _)
  | .assign t x => by
    simp only [expr]
    exact .bind (expr_within h x) fun _ => .bind (store_within h t _) fun _ => .refl _
  | .massign t ts k => by
    simp only [expr]
    refine .bind (call_within h k _) fun vs => ?_
    cases vs with
    | nil => exact .refl _
    | cons v vs => exact .bind (stores_within h ts _) fun _ => .bind (store_within h t _) fun _ => .refl _
  | .list items => by
    simp only [expr]
    exact .ite (.bind (exprs_within h items) fun _ => .refl _) (.refl _)
  | .map items => by simp only [expr]; exact .bind (pairs_within h items _) fun _ => .refl _
  | .call k => by simp only [expr]; exact .bind (call_within h k _) fun _ => .refl _
  | .select a b => by simp only [expr]; exact .bind (expr_within h a) fun _ => .bind (expr_within h b) fun _ => .refl _
  | .func _ f => by simp only [expr, h.scope, h.chain]; exact .refl _
theorem store_within (h : Under c c') : ∀ (x : Target) (v : Val), Within (store c x v) (store c' x v)
  | .var n, v => by simp only [store, h.scope]; exact writeVar_within h.fine _ _ _
  | .sel a b, v => by
    simp only [store]
    exact .bind (expr_within h a) fun _ => .bind (expr_within h b) fun _ => insert_within h.fine _ _ _
theorem stores_within (h : Under c c') : ∀ (x : Targets) (vs : List Val), Within (stores c x vs) (stores c' x vs)
  | .one t, vs => by
    rcases vs with _ | ⟨v, _ | ⟨_, _⟩⟩ <;> simp only [stores]
    · exact .refl _
    · exact store_within h t _
    · exact .refl _
  | .cons t ts, vs => by
    cases vs <;> simp only [stores]
    · exact .refl _
    · exact .bind (stores_within h ts _) fun _ => store_within h t _
theorem call_within (h : Under c c') : ∀ (x : Call) (k : Nat), Within (call c x k) (call c' x k)
  | .fn f args, k => by
    simp only [call]
    exact .bind (exprs_within h args) fun _ => .bind (expr_within h f) fun _ => h.call _ _ _
  | .method a b args, k => by
    simp only [call]
    exact .bind (exprs_within h args) fun _ => .bind (expr_within h a) fun _ => .bind (expr_within h b) fun _ =>
      .bind (.refl _) fun _ => h.call _ _ _
theorem exprs_within (h : Under c c') : ∀ x : Exprs, Within (exprs c x) (exprs c' x)
  | .nil => by simp only [exprs]; exact .refl _
  | .cons x xs => by simp only [exprs]; exact .bind (expr_within h x) fun _ => .bind (exprs_within h xs) fun _ => .refl _
theorem pairs_within (h : Under c c') : ∀ (x : Pairs) (es : List (Val × Val)), Within (pairs c x es) (pairs c' x es)
  | .nil, es => by simp only [pairs]; exact .refl _
  | .cons k v ps, es => by
    simp only [pairs]
    refine .bind (expr_within h k) fun x => .bind (expr_within h v) fun y => ?_
    cases hf : c.fine (keysIn es) with
    | false => rw [Bool.and_false]; exact .leave _
    | true =>
      rw [h.fine _ hf]
      exact .ite (pairs_within h ps _) (.refl _)
theorem bind_within (h : Under c c') : ∀ (x : Params) (vs : List Val), Within (bind c x vs) (bind c' x vs)
  | .nil, vs => by cases vs <;> (simp only [bind]; exact .refl _)
  | .cons n d t ps, vs => by
    cases vs <;> simp only [bind]
    · exact .refl _
    · rw [h.scope]
      exact .bind (orDefault_within _ (opt_within h d)) fun _ => .bind (checkType_within _ (opt_within h t)) fun _ =>
        .bind (writeVar_within h.fine _ _ _) fun _ => bind_within h ps _
theorem opt_within (h : Under c c') : ∀ x : OExpr,
    match opt c x, opt c' x with | none, none => True | some d, some d' => Within d d' | _, _ => False
  | .no => by simp only [opt]
  | .yes x => by simp only [opt]; exact expr_within h x
theorem stmt_within (h : Under c c') : ∀ x : Stmt, Within (stmt c x) (stmt c' x)
  | .expr x => by simp only [stmt]; exact .bind (expr_within h x) fun _ => .refl _
  | .ifElse x t f => by
    simp only [stmt]
    exact .bind (expr_within h x) fun _ => .bind (.refl _) fun _ => .ite (stmt_within h t) (stmt_within h f)
  | .ifOnly x t => by
    simp only [stmt]
    exact .bind (expr_within h x) fun _ => .bind (.refl _) fun _ => .ite (stmt_within h t) (.refl _)
  | .while x b => by
    simp only [stmt, h.fuel]
    exact whileLoop_within (.bind (expr_within h x) fun _ => .refl _) (stmt_within h b) _
  | .doWhile b x => by
    simp only [stmt, h.fuel]
    exact doLoop_within (.bind (expr_within h x) fun _ => .refl _) (stmt_within h b) _
  | .comp ss => by simp only [stmt]; exact stmts_within h ss
  | .ret es => by simp only [stmt]; exact .bind (exprs_within h es) fun _ => .refl _
  | .func n f => by
    simp only [stmt, h.scope, h.chain]
    exact .bind (writeVar_within h.fine _ _ _) fun _ => .refl _
  | .brk => by simp only [stmt]; exact .refl _
theorem stmts_within (h : Under c c') : ∀ x : Stmts, Within (stmts c x) (stmts c' x)
  | .nil => by simp only [stmts]; exact .refl _
  | .cons x xs => by
    simp only [stmts]
    refine .bind (stmt_within h x) fun r => ?_
    cases r with
    | normal => exact stmts_within h xs
    | brk => exact .refl _
    | ret vs => exact .refl _
end
end

theorem callN_within [Floats] {fine fine' : List Key → Bool} (h : ∀ ks, fine ks = true → fine' ks = true) (lib : List Nat) :
    ∀ n v vs k, Within (callN fine lib n v vs k) (callN fine' lib n v vs k)
  | 0, _, _, _ => .refl _
  | n + 1, v, vs, k => by
    cases v with
    | fn f chain =>
      unfold callN
      refine .bind (.refl _) fun a => .bind ?_ fun _ => .refl _
      cases f with
      | mk ps b =>
        unfold runFun
        have hu : Under ⟨n, callN fine lib n, a, chain, lib, fine⟩ ⟨n, callN fine' lib n, a, chain, lib, fine'⟩ :=
          ⟨rfl, rfl, rfl, rfl, h, callN_within h lib n⟩
        exact .bind (bind_within hu ps _) fun _ => .bind (stmt_within hu b) fun _ => .refl _
    | _ => exact .refl _

theorem mean_within [Floats] {fine fine' : List Key → Bool} (h : ∀ ks, fine ks = true → fine' ks = true) (lib : List Nat) (fuel : Nat)
    (p : Stmts) : Within (mean fine lib fuel p) (mean fine' lib fuel p) := by
  unfold mean
  refine .bind (.refl _) fun a => ?_
  unfold program
  have hu : Under ⟨fuel, callN fine lib fuel, a, [], lib, fine⟩ ⟨fuel, callN fine' lib fuel, a, [], lib, fine'⟩ :=
    ⟨rfl, rfl, rfl, rfl, h, callN_within h lib fuel⟩
  exact .bind (stmts_within hu p) fun _ => .refl _

theorem runIf_within [Floats] {fine fine' : List Key → Bool} (h : ∀ ks, fine ks = true → fine' ks = true) (fuel : Nat) (p : Stmts) :
    runIf fine fuel p = .off ∨ runIf fine fuel p = runIf fine' fuel p := by
  unfold runIf
  exact Within.bind (.refl startUp) (fun a => mean_within h [a] fuel p) _

/-- What the book says about a program under a condition, it says about it. -/
theorem runIf_run [Floats] (fine : List Key → Bool) (fuel : Nat) (p : Stmts) : runIf fine fuel p = .off ∨ runIf fine fuel p = run fuel p :=
  runIf_within (fun _ _ => rfl) fuel p

end Noja.VM.Book
