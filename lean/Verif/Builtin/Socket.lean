import Verif.Exec
import Verif.CInt

/-!
# Sockets (builtins/net.c): C108

What programs ask of the system through `net.socket`, `net.bind`, `net.listen`, `net.accept` and `net.close`, and what they are told.  (C97
has the forms of ports and addresses, C67 the transfers.)

The system is an oracle: every call succeeds with any number that is no negative one, or fails with any text.  Simplifications: arguments are of the
right kind (C68); the address of `net.bind` is left out of the call, only whether `inet_pton` reads it is known; there is memory for the
results.
-/

set_option linter.unusedVariables false

namespace Noja.Socket

/-! ## Model -/

/-- What is given back to the program (utils.c:3-33 `returnValuesVA`). -/
inductive Val where
  | none
  | int (v : Int)
  | str (s : List UInt8)
  deriving DecidableEq, Repr

/-- What the system is asked for. -/
inductive Sys where
  | socket (domain type proto : Int)
  | reuse (fd : Int)
  | bind (fd : Int) (port : Int)
  | listen (fd backlog : Int)
  | accept (fd : Int)
  | close (fd : Int)
  deriving DecidableEq, Repr

/-- What it answers: a number, or why not (`strerror(errno)`). -/
inductive Answer where
  | good (n : Nat)
  | bad (why : List UInt8)
  deriving DecidableEq, Repr

/-- The calls that were made and what the program is told. -/
abbrev Told := List (Sys × Answer) × List Val

/-- AF_INET -/
def inet : Int := 2

/-- The functions with their arguments. -/
inductive Call where
  | socket (domain type proto : Int) (reuse : Option Bool)
  | bind (fd family port : Int) (addr : Option (List UInt8))
  | listen (fd backlog : Int)
  | accept (fd : Int)
  | close (fd : Int)

/-- net.c:10-34 `bin_socket`. -/
def socket (sys : Sys → Answer) (domain type proto : Int) (reuse : Option Bool) : Told :=
  let s := Sys.socket (toI32 domain) (toI32 type) (toI32 proto)
  match sys s with
  | .bad e => ([(s, .bad e)], [.none, .str e])
  | .good fd =>
    if reuse.getD false then
      match sys (.reuse fd) with
      | .bad e => ([(s, .good fd), (.reuse fd, .bad e)], [.none, .str e])
      | .good n => ([(s, .good fd), (.reuse fd, .good n)], [.int (toI32 fd)])
    else ([(s, .good fd)], [.int (toI32 fd)])

/-- `Invalid family …` and `Invalid address` -/
def invalid : List UInt8 := [73, 110, 118, 97, 108, 105, 100]

/-- net.c:36-74 `bin_bind`; `reads` is `inet_pton`. -/
def bind (sys : Sys → Answer) (reads : List UInt8 → Bool) (fd family port : Int) (addr : Option (List UInt8)) : Told :=
  if toI32 family ≠ inet then ([], [.none, .str invalid])
  else if addr.any fun a => !reads a then ([], [.none, .str invalid])
  else
    let s := Sys.bind (toI32 fd) (toI32 port % 65536)
    match sys s with
    | .bad e => ([(s, .bad e)], [.str e])
    | .good n => ([(s, .good n)], [.none])

/-- net.c:76-92 `bin_listen`. -/
def listen (sys : Sys → Answer) (fd backlog : Int) : Told :=
  let s := Sys.listen (toI32 fd) (toI32 backlog)
  match sys s with
  | .bad e => ([(s, .bad e)], [.str e])
  | .good n => ([(s, .good n)], [.none])

/-- net.c:154-174 `bin_accept`; `peer` is the address and the port of the other side, as numbers (C97). -/
def accept (sys : Sys → Answer) (peer : Int × Int) (fd : Int) : Told :=
  let s := Sys.accept (toI32 fd)
  match sys s with
  | .bad e => ([(s, .bad e)], [.none, .str e])
  | .good n => ([(s, .good n)], [.int (toI32 n), .int peer.1, .int peer.2])

/-- net.c:177-189 `bin_close`. -/
def close (sys : Sys → Answer) (fd : Int) : Told :=
  let s := Sys.close (toI32 fd)
  match sys s with
  | .bad e => ([(s, .bad e)], [.int (-1)])
  | .good n => ([(s, .good n)], [.int 0])

def run (sys : Sys → Answer) (reads : List UInt8 → Bool) (peer : Int × Int) : Call → Told
  | .socket d t p r => socket sys d t p r
  | .bind fd f p a => bind sys reads fd f p a
  | .listen fd b => listen sys fd b
  | .accept fd => accept sys peer fd
  | .close fd => close sys fd

/-! ## Property -/

/-- What is to be asked for, if nothing fails. -/
def Call.plan : Call → (fd : Int) → List Sys
  | .socket d t p r, fd => .socket d t p :: (if r = some true then [.reuse fd] else [])
  | .bind fd _ port _, _ => [.bind fd port]
  | .listen fd b, _ => [.listen fd b]
  | .accept fd, _ => [.accept fd]
  | .close fd, _ => [.close fd]

/-- Everything that was asked for has been granted. -/
def Granted (c : Call) (t : Told) : Prop :=
  (∃ fd, t.1.map Prod.fst = c.plan fd) ∧ ∀ x ∈ t.1, ∃ n, x.2 = .good n

/-- The descriptors that the system has given out. -/
def given : List (Sys × Answer) → List Int
  | [] => []
  | (.socket _ _ _, .good n) :: l => n :: given l
  | (.accept _, .good n) :: l => n :: given l
  | _ :: l => given l

/-- The descriptors that have been given back. -/
def closed : List (Sys × Answer) → List Int
  | [] => []
  | (.close fd, .good _) :: l => fd :: closed l
  | _ :: l => closed l

/-- The last thing that was asked for has been refused. -/
def Refused (t : Told) : Prop :=
  ∃ l s e, t.1 = l ++ [(s, .bad e)] ∧ ∀ x ∈ l, ∃ n, x.2 = .good n

/-- An address that there is none of: another family, or a text that is no address. -/
def NoAddress (reads : List UInt8 → Bool) : Call → Prop
  | .bind _ f _ a => f ≠ inet ∨ ∃ x ∈ a, reads x = false
  | _ => False

/-- **C108**: the system is asked for what the program asks for, in this order and with these numbers, until something is refused and for nothing
else; success can be told from failure, also by a program which looks only at as many values as there are in the case of success; and
the program is told every descriptor that it has been given (and that has not been given back). -/
def C108Statement : Prop :=
  ∀ (sys : Sys → Answer) (reads : List UInt8 → Bool) (peer : Int × Int) (c : Call),
    (∃ fd, (run sys reads peer c).1.map Prod.fst <+: c.plan fd) ∧
    (Granted c (run sys reads peer c) ∨ Refused (run sys reads peer c) ∨ NoAddress reads c) ∧
    (∀ sys' reads' peer', Granted c (run sys reads peer c) → ¬ Granted c (run sys' reads' peer' c) →
      (run sys' reads' peer' c).2.take (run sys reads peer c).2.length ≠ (run sys reads peer c).2) ∧
    ∀ fd ∈ given (run sys reads peer c).1, Val.int fd ∈ (run sys reads peer c).2 ∨ fd ∈ closed (run sys reads peer c).1

/-- Arguments as they are meant: `int`s, ports, the one family there is. -/
def Fine (reads : List UInt8 → Bool) : Call → Prop
  | .socket d t p _ => IsI32 d ∧ IsI32 t ∧ IsI32 p
  | .bind fd f p a => IsI32 fd ∧ f = inet ∧ 0 ≤ p ∧ p < 65536 ∧ ∀ x ∈ a, reads x = true
  | .listen fd b => IsI32 fd ∧ IsI32 b
  | .accept fd => IsI32 fd
  | .close fd => IsI32 fd

/-- Descriptors are `int`s, and a new socket can be given the option. -/
def Kind (sys : Sys → Answer) : Prop := (∀ s n, sys s = .good n → n < 2 ^ 31) ∧ ∀ fd, ∃ n, sys (.reuse fd) = .good n

theorem small {n : Nat} (h : n < 2 ^ 31) : toI32 (n : Int) = n := toI32_of_isI32 (by unfold IsI32; omega)

/-- What is told in the case of success. -/
def Good : Call → List Val → Prop
  | .socket .., vs => ∃ n, vs = [.int n]
  | .accept _, vs => ∃ n a p, vs = [.int n, .int a, .int p]
  | .close _, vs => vs = [.int 0]
  | _, vs => vs = [.none]

/-- What is told otherwise. -/
def Bad : Call → List Val → Prop
  | .socket .., vs => ∃ e, vs = [.none, .str e]
  | .accept _, vs => ∃ e, vs = [.none, .str e]
  | .close _, vs => vs = [.int (-1)]
  | _, vs => ∃ e, vs = [.str e]

theorem good_bad {c : Call} {vs vs' : List Val} (h : Good c vs) (h' : Bad c vs') : vs'.take vs.length ≠ vs := by
  cases c with
  | socket d t p r =>
    obtain ⟨n, rfl⟩ := h
    obtain ⟨e, rfl⟩ := h'
    exact nofun
  | bind fd f p a =>
    cases (show vs = _ from h)
    obtain ⟨e, rfl⟩ := h'
    exact nofun
  | listen fd b =>
    cases (show vs = _ from h)
    obtain ⟨e, rfl⟩ := h'
    exact nofun
  | accept fd =>
    obtain ⟨n, a, p, rfl⟩ := h
    obtain ⟨e, rfl⟩ := h'
    exact nofun
  | close fd =>
    cases (show vs = _ from h)
    cases (show vs' = _ from h')
    exact nofun

theorem not_granted {c : Call} {t : Told} {s : Sys} {e : List UInt8} (h : (s, Answer.bad e) ∈ t.1) : ¬ Granted c t := fun hg => by
  obtain ⟨n, hn⟩ := hg.2 _ h
  cases hn

/-- One call: what is asked for, what is told and what is given. -/
def Right (c : Call) (t : Told) : Prop :=
  (∃ fd, t.1.map Prod.fst <+: c.plan fd) ∧ ((Granted c t ∧ Good c t.2) ∨ (¬ Granted c t ∧ Refused t ∧ Bad c t.2)) ∧
  ∀ fd ∈ given t.1, Val.int fd ∈ t.2 ∨ fd ∈ closed t.1

theorem right (sys : Sys → Answer) (reads : List UInt8 → Bool) (peer : Int × Int) (c : Call) (hk : Kind sys) (hf : Fine reads c) :
    Right c (run sys reads peer c) := by
  cases c with
  | socket d t p r =>
    obtain ⟨h1, h2, h3⟩ := hf
    show Right _ (socket sys d t p r)
    unfold socket
    rw [toI32_of_isI32 h1, toI32_of_isI32 h2, toI32_of_isI32 h3]
    dsimp only
    cases hs : sys (.socket d t p) with
    | bad e =>
      exact ⟨⟨0, List.prefix_append [Sys.socket d t p] _⟩, .inr ⟨not_granted (List.mem_cons_self ..), ⟨[], _, _, rfl, nofun⟩, e, rfl⟩, nofun⟩
    | good fd =>
      have hfd := small (hk.1 _ _ hs)
      dsimp only
      rw [hfd]
      by_cases hr : r.getD false = true
      · rw [if_pos hr]
        have hr : r = some true := by
          cases r with
          | none => cases hr
          | some b => cases b <;> first | rfl | cases hr
        obtain ⟨n, hn⟩ := hk.2 fd
        rw [hn]
        have hp : (Call.socket d t p r).plan fd = [.socket d t p, .reuse fd] := by unfold Call.plan; dsimp only; rw [if_pos hr]
        refine ⟨⟨fd, by rw [hp]; exact List.prefix_refl _⟩, .inl ⟨⟨⟨fd, hp.symm⟩, fun x hx => ?_⟩, fd, rfl⟩, fun x hx => ?_⟩
        · rcases List.mem_cons.1 hx with rfl | hx
          · exact ⟨_, rfl⟩
          · cases List.mem_singleton.1 hx
            exact ⟨_, rfl⟩
        · cases List.mem_singleton.1 (show x ∈ [(fd : Int)] from hx)
          exact .inl (List.mem_singleton.2 rfl)
      · rw [if_neg hr]
        have hr : ¬ r = some true := fun e => hr (by rw [e]; rfl)
        have hp : (Call.socket d t p r).plan fd = [.socket d t p] := by unfold Call.plan; dsimp only; rw [if_neg hr]
        refine ⟨⟨fd, by rw [hp]; exact List.prefix_refl _⟩, .inl ⟨⟨⟨fd, hp.symm⟩, fun x hx => ?_⟩, fd, rfl⟩, fun x hx => ?_⟩
        · cases List.mem_singleton.1 hx
          exact ⟨_, rfl⟩
        · cases List.mem_singleton.1 (show x ∈ [(fd : Int)] from hx)
          exact .inl (List.mem_singleton.2 rfl)
  | bind fd f p a =>
    obtain ⟨h1, h2, h3, h4, h5⟩ := hf
    show Right _ (bind sys reads fd f p a)
    unfold bind
    have ha : (a.any fun x => !reads x) = false := by
      cases a with
      | none => rfl
      | some x =>
        show (!reads x) = false
        rw [h5 x rfl]
        rfl
    rw [if_neg (by rw [h2]; decide), ha, if_neg nofun, toI32_of_isI32 h1, toI32_of_isI32 (show IsI32 p by unfold IsI32; omega),
      show p % 65536 = p by omega]
    dsimp only
    cases hs : sys (.bind fd p) with
    | bad e => exact ⟨⟨0, List.prefix_refl _⟩, .inr ⟨not_granted (List.mem_cons_self ..), ⟨[], _, _, rfl, nofun⟩, e, rfl⟩, nofun⟩
    | good n =>
      refine ⟨⟨0, List.prefix_refl _⟩, .inl ⟨⟨⟨0, rfl⟩, fun x hx => ?_⟩, rfl⟩, nofun⟩
      cases List.mem_singleton.1 hx
      exact ⟨_, rfl⟩
  | listen fd b =>
    obtain ⟨h1, h2⟩ := hf
    show Right _ (listen sys fd b)
    unfold listen
    rw [toI32_of_isI32 h1, toI32_of_isI32 h2]
    dsimp only
    cases hs : sys (.listen fd b) with
    | bad e => exact ⟨⟨0, List.prefix_refl _⟩, .inr ⟨not_granted (List.mem_cons_self ..), ⟨[], _, _, rfl, nofun⟩, e, rfl⟩, nofun⟩
    | good n =>
      refine ⟨⟨0, List.prefix_refl _⟩, .inl ⟨⟨⟨0, rfl⟩, fun x hx => ?_⟩, rfl⟩, nofun⟩
      cases List.mem_singleton.1 hx
      exact ⟨_, rfl⟩
  | accept fd =>
    show Right _ (accept sys peer fd)
    unfold accept
    rw [toI32_of_isI32 hf]
    dsimp only
    cases hs : sys (.accept fd) with
    | bad e => exact ⟨⟨0, List.prefix_refl _⟩, .inr ⟨not_granted (List.mem_cons_self ..), ⟨[], _, _, rfl, nofun⟩, e, rfl⟩, nofun⟩
    | good n =>
      dsimp only
      rw [small (hk.1 _ _ hs)]
      refine ⟨⟨0, List.prefix_refl _⟩, .inl ⟨⟨⟨0, rfl⟩, fun x hx => ?_⟩, _, _, _, rfl⟩, fun x hx => ?_⟩
      · cases List.mem_singleton.1 hx
        exact ⟨_, rfl⟩
      · cases List.mem_singleton.1 (show x ∈ [(n : Int)] from hx)
        exact .inl (List.mem_cons_self ..)
  | close fd =>
    show Right _ (close sys fd)
    unfold close
    rw [toI32_of_isI32 hf]
    dsimp only
    cases hs : sys (.close fd) with
    | bad e => exact ⟨⟨0, List.prefix_refl _⟩, .inr ⟨not_granted (List.mem_cons_self ..), ⟨[], _, _, rfl, nofun⟩, rfl⟩, nofun⟩
    | good n =>
      refine ⟨⟨0, List.prefix_refl _⟩, .inl ⟨⟨⟨0, rfl⟩, fun x hx => ?_⟩, rfl⟩, nofun⟩
      cases List.mem_singleton.1 hx
      exact ⟨_, rfl⟩

/-- **C108, partial**: for arguments that are `int`s, ports, the one family there is, and addresses that can be read, on systems on which new sockets can be given
the option. -/
theorem C108_partial (sys : Sys → Answer) (reads : List UInt8 → Bool) (peer : Int × Int) (c : Call) (hk : Kind sys) (hf : Fine reads c) :
    (∃ fd, (run sys reads peer c).1.map Prod.fst <+: c.plan fd) ∧
    (Granted c (run sys reads peer c) ∨ Refused (run sys reads peer c) ∨ NoAddress reads c) ∧
    (∀ sys' reads' peer', Kind sys' → Fine reads' c → Granted c (run sys reads peer c) → ¬ Granted c (run sys' reads' peer' c) →
      (run sys' reads' peer' c).2.take (run sys reads peer c).2.length ≠ (run sys reads peer c).2) ∧
    ∀ fd ∈ given (run sys reads peer c).1, Val.int fd ∈ (run sys reads peer c).2 ∨ fd ∈ closed (run sys reads peer c).1 := by
  obtain ⟨h1, h2, h3⟩ := right sys reads peer c hk hf
  refine ⟨h1, h2.elim (fun x => .inl x.1) (fun x => .inr (.inl x.2.1)), fun sys' reads' peer' hk' hf' hg hn => ?_, h3⟩
  obtain ⟨-, h2', -⟩ := right sys' reads' peer' c hk' hf'
  exact good_bad (h2.resolve_right fun x => x.1 hg).2 (h2'.resolve_left fun x => hn x.1).2.2

/-- What is told is right: the descriptor of the new socket or connection. -/
theorem C108_told (sys : Sys → Answer) (reads : List UInt8 → Bool) (peer : Int × Int) (hk : Kind sys) :
    (∀ d t p r n, IsI32 d → IsI32 t → IsI32 p → sys (.socket d t p) = .good n → (run sys reads peer (.socket d t p r)).2 = [.int n]) ∧
    (∀ fd n, IsI32 fd → sys (.accept fd) = .good n → (run sys reads peer (.accept fd)).2 = [.int n, .int peer.1, .int peer.2]) := by
  refine ⟨fun d t p r n h1 h2 h3 hs => ?_, fun fd n h hs => ?_⟩
  · show (socket sys d t p r).2 = _
    unfold socket
    rw [toI32_of_isI32 h1, toI32_of_isI32 h2, toI32_of_isI32 h3]
    dsimp only
    rw [hs]
    dsimp only
    rw [small (hk.1 _ _ hs)]
    obtain ⟨m, hm⟩ := hk.2 n
    by_cases hr : r.getD false = true
    · rw [if_pos hr, hm]
    · rw [if_neg hr]
  · show (accept sys peer fd).2 = _
    unfold accept
    rw [toI32_of_isI32 h]
    dsimp only
    rw [hs]
    dsimp only
    rw [small (hk.1 _ _ hs)]

/-- Why something is refused is told in every case but that of `net.close`. -/
theorem C108_why (sys : Sys → Answer) (reads : List UInt8 → Bool) (peer : Int × Int) (c : Call) (hc : ∀ fd, c ≠ .close fd) (s : Sys) (e : List UInt8)
    (h : (s, Answer.bad e) ∈ (run sys reads peer c).1) : Val.str e ∈ (run sys reads peer c).2 := by
  revert h
  cases c with
  | socket d t p r =>
    show _ ∈ (socket sys d t p r).1 → _ ∈ (socket sys d t p r).2
    unfold socket
    dsimp only
    cases sys (.socket (toI32 d) (toI32 t) (toI32 p)) with
    | bad e' => simp
    | good fd =>
      dsimp only
      by_cases hr : r.getD false = true
      · rw [if_pos hr]
        cases sys (.reuse fd) with
        | bad e' => simp
        | good n => simp
      · rw [if_neg hr]
        simp
  | bind fd f p a =>
    show _ ∈ (bind sys reads fd f p a).1 → _ ∈ (bind sys reads fd f p a).2
    unfold bind
    dsimp only
    by_cases h1 : toI32 f ≠ inet
    · rw [if_pos h1]
      exact nofun
    rw [if_neg h1]
    by_cases h2 : (a.any fun x => !reads x) = true
    · rw [if_pos h2]
      exact nofun
    rw [if_neg h2]
    cases sys (.bind (toI32 fd) (toI32 p % 65536)) with
    | bad e' => simp
    | good n => simp
  | listen fd b =>
    show _ ∈ (listen sys fd b).1 → _ ∈ (listen sys fd b).2
    unfold listen
    dsimp only
    cases sys (.listen (toI32 fd) (toI32 b)) with
    | bad e' => simp
    | good n => simp
  | accept fd =>
    show _ ∈ (accept sys peer fd).1 → _ ∈ (accept sys peer fd).2
    unfold accept
    dsimp only
    cases sys (.accept (toI32 fd)) with
    | bad e' => simp
    | good n => simp
  | close fd => exact absurd rfl (hc fd)

/-! ## Examples and violations -/

/-- A system that gives descriptor 5 and grants everything. -/
def yes : Sys → Answer := fun _ => .good 5

/-- A system that gives descriptor 5 but not the option. -/
def stingy : Sys → Answer
  | .reuse _ => .bad [33]
  | _ => .good 5

example : Kind yes ∧ Fine (fun _ => true) (.socket 2 1 0 (some true)) ∧
    run yes (fun _ => true) (0, 0) (.socket 2 1 0 (some true)) = ([(.socket 2 1 0, .good 5), (.reuse 5, .good 5)], [.int 5]) ∧
    run yes (fun _ => true) (0, 0) (.bind 5 2 8080 none) = ([(.bind 5 8080, .good 5)], [.none]) ∧
    run (fun _ => .bad [33]) (fun _ => true) (0, 0) (.listen 5 10) = ([(.listen 5 10, .bad [33])], [.str [33]]) := by
  refine ⟨⟨fun s n h => ?_, fun fd => ⟨5, rfl⟩⟩, ⟨by unfold IsI32; omega, by unfold IsI32; omega, by unfold IsI32; omega⟩, by decide, by decide, by decide⟩
  cases h
  decide

/-- The descriptor of a socket that cannot be given the option is neither told nor given back. -/
theorem C108_violated : ¬ C108Statement := by
  intro h
  have h := (h stingy (fun _ => true) (0, 0) (.socket 2 1 0 (some true))).2.2.2 5 (by decide)
  revert h
  decide

/-- Descriptors are cut to 32 bits: `net.close(2^32 + 3)` closes descriptor 3. -/
theorem C108_violated_descriptor : ¬ C108Statement := by
  intro h
  obtain ⟨fd, h⟩ := (h yes (fun _ => true) (0, 0) (.close (2 ^ 32 + 3))).1
  have hc : (run yes (fun _ => true) (0, 0) (.close (2 ^ 32 + 3))).1.map Prod.fst = [.close 3] := by decide
  rw [hc] at h
  have h : [Sys.close 3] = [Sys.close (2 ^ 32 + 3)] := List.IsPrefix.eq_of_length h rfl
  revert h
  decide

/-- The first value of a refused `net.bind` is that of one that succeeded. -/
theorem C108_violated_bind : ¬ C108Statement := by
  intro h
  refine (h yes (fun _ => true) (0, 0) (.bind 5 2 8080 (some [120]))).2.2.1 yes (fun _ => false) (0, 0) ⟨⟨0, by decide⟩, ?_⟩ ?_ ?_
  · intro x hx
    have hx : x ∈ [((Sys.bind 5 8080 : Sys), Answer.good 5)] := hx
    cases List.mem_singleton.1 hx
    exact ⟨_, rfl⟩
  · rintro ⟨⟨fd, hp⟩, -⟩
    have hp : ([] : List Sys) = [Sys.bind 5 8080] := hp
    cases hp
  · decide

/-- And in general: whoever looks at the first value alone takes every refusal for a success. -/
theorem C108_bind_refused (sys : Sys → Answer) (reads : List UInt8 → Bool) (fd family port : Int) (addr : Option (List UInt8))
    (h : toI32 family ≠ inet ∨ ∃ a, addr = some a ∧ reads a = false) :
    (bind sys reads fd family port addr).1 = [] ∧ (bind sys reads fd family port addr).2.head? = some .none := by
  unfold bind
  by_cases hf : toI32 family ≠ inet
  · rw [if_pos hf]
    exact ⟨rfl, rfl⟩
  · rw [if_neg hf]
    obtain ⟨a, rfl, ha⟩ := h.resolve_left hf
    rw [if_pos (show ((some a).any fun a => !reads a) = true by show (!reads a) = true; rw [ha]; rfl)]
    exact ⟨rfl, rfl⟩

end Noja.Socket
