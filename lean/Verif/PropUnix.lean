import Verif.Unix
import Verif.PropStr

/-!
# Properties of the natives of `unix` and `sys` (C64–C69)

All theorems are for every operating system: `os` is an arbitrary function from histories and calls to replies.
-/

namespace Mnml
namespace Unix

open Val

/-! ## Running computations -/

theorem run_pure {α : Type} (a : α) (os : Sys) (t : Trace) : (pure a : U α) os t = .ok (a, t) := rfl
theorem run_bind {α β : Type} (x : U α) (f : α → U β) (os : Sys) (t : Trace) :
    (x >>= f) os t = (x os t >>= fun p => f p.1 os p.2) := rfl
theorem run_sys (c : Call) (os : Sys) (t : Trace) : sys c os t = .ok (os t c, (c, os t c) :: t) := rfl
theorem run_lift {α : Type} (r : Res α) (os : Sys) (t : Trace) : U.lift r os t = (r >>= fun a => .ok (a, t)) := rfl
theorem run_ite {α : Type} (p : Prop) [Decidable p] (x y : U α) (os : Sys) (t : Trace) :
    (if p then x else y) os t = if p then x os t else y os t := by split <;> rfl

/-! ## C64: descriptors are not lost -/

/-- The descriptors that a call creates, given its reply. -/
def created : Call × Rep → List Int
  | (.socket, r) => if 0 ≤ r.ret then [r.ret] else []
  | (.accept _, r) => if 0 ≤ r.ret then [r.ret] else []
  | (.pipe, r) => if r.ret = 0 then [r.fds.1, r.fds.2] else []
  | (.dup _, r) => if 0 ≤ r.ret then [r.ret] else []
  | (.dup2 _ _, r) => if 0 ≤ r.ret then [r.ret] else []
  | _ => []

/-- The descriptors that a call gives up. -/
def closed : Call × Rep → List Int
  | (.close fd, _) => [fd]
  | _ => []

/-- **C64.** `listen` always ends. It gives the one descriptor that it has created and closes nothing, or NIL after closing exactly
what it has created. -/
theorem C64_listen (x : Val) (os : Sys) (t : Trace) :
    ∃ v es, natListen x os t = .ok (v, es ++ t) ∧
      ((v = nil ∧ es.flatMap closed = es.flatMap created) ∨
       (∃ fd, v = num fd ∧ es.flatMap created = [fd] ∧ es.flatMap closed = [])) := by
  unfold natListen
  split
  · next n =>
    split
    · exact ⟨nil, [], rfl, .inl ⟨rfl, rfl⟩⟩
    · simp only [run_bind, run_sys, run_ite, run_pure, Res.ok_bind]
      split
      · next h =>
        exact ⟨nil, [(.socket, os t .socket)], rfl, .inl ⟨rfl, by simp [closed, created]; omega⟩⟩
      · next h =>
        have h0 : 0 ≤ (os t .socket).ret := by omega
        split
        · exact ⟨nil, [_, _, _], rfl, .inl ⟨rfl, by simp [closed, created, h0]⟩⟩
        · split
          · exact ⟨nil, [_, _, _, _], rfl, .inl ⟨rfl, by simp [closed, created, h0]⟩⟩
          · split
            · exact ⟨nil, [_, _, _, _, _], rfl, .inl ⟨rfl, by simp [closed, created, h0]⟩⟩
            · split
              · exact ⟨nil, [_, _, _, _, _, _], rfl, .inl ⟨rfl, by simp [closed, created, h0]⟩⟩
              · exact ⟨_, [_, _, _, _, _], rfl, .inr ⟨_, rfl, by simp [closed, created, h0], by simp [closed]⟩⟩
  · exact ⟨nil, [], rfl, .inl ⟨rfl, rfl⟩⟩

/-- **C64.** The same for `connect`, whenever it ends (see C65 for the strings with which it does). -/
theorem C64_connect (a p : Val) (os : Sys) (t t' : Trace) (v : Val) (h : natConnect a p os t = .ok (v, t')) :
    ∃ es, t' = es ++ t ∧
      ((v = nil ∧ es.flatMap closed = es.flatMap created) ∨
       (∃ fd, v = num fd ∧ es.flatMap created = [fd] ∧ es.flatMap closed = [])) := by
  unfold natConnect at h
  split at h
  · cases h; exact ⟨[], rfl, .inl ⟨rfl, rfl⟩⟩
  simp only [run_bind, run_lift] at h
  cases hb : buf1024 a with
  | ok b =>
    rw [hb] at h
    simp only [Res.ok_bind, run_ite, run_pure, run_bind, run_lift] at h
    split at h
    · cases h; exact ⟨[], rfl, .inl ⟨rfl, rfl⟩⟩
    cases hc : buf1024 p with
    | ok c =>
      rw [hc] at h
      simp only [Res.ok_bind, run_ite, run_pure, run_bind, run_sys] at h
      split at h
      · cases h; exact ⟨[], rfl, .inl ⟨rfl, rfl⟩⟩
      split at h
      · next h1 =>
        cases h; exact ⟨[_], rfl, .inl ⟨rfl, by simp [closed, created]; omega⟩⟩
      next h1 =>
      have h0 : 0 ≤ (os t .socket).ret := by omega
      split at h
      · cases h; exact ⟨[_, _, _], rfl, .inl ⟨rfl, by simp [closed, created, h0]⟩⟩
      split at h
      · cases h; exact ⟨[_, _, _, _], rfl, .inl ⟨rfl, by simp [closed, created, h0]⟩⟩
      split at h
      · cases h; exact ⟨[_, _, _, _, _], rfl, .inl ⟨rfl, by simp [closed, created, h0]⟩⟩
      · cases h; exact ⟨[_, _, _, _], rfl, .inr ⟨_, rfl, by simp [created, h0], by simp [closed]⟩⟩
    | _ => rw [hc] at h; cases h
  | _ => rw [hb] at h; cases h

/-- **C64.** `accept` gives the descriptor that it creates as CAR of its result, or NIL if it creates none; it closes nothing. -/
theorem C64_accept (x : Val) (os : Sys) (t : Trace) :
    ∃ v es, natAccept x os t = .ok (v, es ++ t) ∧ es.flatMap closed = [] ∧
      ((v = nil ∧ es.flatMap created = []) ∨ (∃ fd d, v = cons (num fd) d ∧ es.flatMap created = [fd])) := by
  unfold natAccept
  split
  · next n =>
    split
    · exact ⟨nil, [], rfl, rfl, .inl ⟨rfl, rfl⟩⟩
    · simp only [run_bind, run_sys, run_ite, run_pure, Res.ok_bind]
      split
      · exact ⟨nil, [_], rfl, rfl, .inl ⟨rfl, by simp [created]; omega⟩⟩
      · next h =>
        have h0 : 0 ≤ (os t (.accept (int32 n))).ret := by omega
        cases (os t (.accept (int32 n))).peer with
        | none => exact ⟨_, [_], rfl, rfl, .inr ⟨_, _, rfl, by simp [created, h0]⟩⟩
        | some q => exact ⟨_, [_], rfl, rfl, .inr ⟨_, _, rfl, by simp [created, h0]⟩⟩
  · exact ⟨nil, [], rfl, rfl, .inl ⟨rfl, rfl⟩⟩

/-- **C64.** `pipe` gives both ends, the reading end first, or NIL if there are none. -/
theorem C64_pipe (os : Sys) (t : Trace) :
    ∃ v es, natPipe os t = .ok (v, es ++ t) ∧ es.flatMap closed = [] ∧
      ((v = nil ∧ es.flatMap created = []) ∨ (∃ r w, v = cons (num r) (num w) ∧ es.flatMap created = [r, w])) := by
  unfold natPipe
  simp only [run_bind, run_sys, run_ite, run_pure, Res.ok_bind]
  split
  · next h => exact ⟨nil, [_], rfl, rfl, .inl ⟨rfl, by simp [created, h]⟩⟩
  · next h => exact ⟨_, [_], rfl, rfl, .inr ⟨_, _, rfl, by simp [created]; omega⟩⟩

/-- **C64.** `dup` with one descriptor, or with a descriptor and a target, makes one call with these numbers. It gives the descriptor that the call has
created, if it has created one. -/
theorem C64_dup (ev : Val → U Val) (a b : Val) (n : Int) (v : Val) (os : Sys) (t t1 t2 : Trace)
    (ha : ev a os t = .ok (num n, t1)) (hb : ev b os t1 = .ok (v, t2)) (hn : -2 ^ 31 ≤ n ∧ n < 2 ^ 31)
    (hv : v = nil ∨ ∃ m : Int, v = num m ∧ -2 ^ 31 ≤ m ∧ m < 2 ^ 31) :
    ∃ c w, natDup ev (ofList [a, b]) os t = .ok (w, (c, os t2 c) :: t2) ∧
      ((v = nil ∧ c = .dup n) ∨ (∃ m, v = num m ∧ c = .dup2 n m)) ∧
      ∀ fd, created (c, os t2 c) = [fd] → w = num fd := by
  have i32 : ∀ k : Int, -2 ^ 31 ≤ k ∧ k < 2 ^ 31 → int32 k = k := by intro k hk; unfold int32; omega
  have e : natDup ev (ofList [a, b]) os t = (if v.isNil then (do
      let r ← sys (.dup (int32 n))
      pure (num (if r.ret < 0 then r.errno else r.ret)) : U Val) else do
      let m ← U.lift v.number
      let r ← sys (.dup2 (int32 n) (int32 m))
      pure (num (if r.ret < 0 then r.errno else r.ret))) os t2 := by
    simp only [natDup, ofList, Val.cons, Val.car, Val.cdr, run_bind, ha, hb, Res.ok_bind, run_lift, number]
    cases v <;> rfl
  have fin : ∀ (c : Call) (fd : Int), (c = .dup n ∨ ∃ m, c = .dup2 n m) → created (c, os t2 c) = [fd] →
      num (if (os t2 c).ret < 0 then (os t2 c).errno else (os t2 c).ret) = num fd := by
    intro c fd hc h
    rcases hc with rfl | ⟨m, rfl⟩ <;> simp only [created] at h <;> split at h
    · next h0 => cases h; rw [if_neg (by omega)]
    · cases h
    · next h0 => cases h; rw [if_neg (by omega)]
    · cases h
  rw [e, i32 n hn]
  rcases hv with rfl | ⟨m, rfl, hm⟩
  · exact ⟨.dup n, _, rfl, .inl ⟨rfl, rfl⟩, fun fd h => fin _ fd (.inl rfl) h⟩
  · rw [if_neg (by simp [isNil])]
    simp only [run_bind, run_lift, number, Res.ok_bind, run_sys, run_pure, i32 m hm]
    exact ⟨.dup2 n m, _, rfl, .inr ⟨m, rfl, rfl⟩, fun fd h => fin _ fd (.inr ⟨m, rfl⟩) h⟩

/-- Example: an operating system where the socket is 3 and all other calls give 0, so that `listen` succeeds. -/
example : natListen (num 80) (fun _ c => { ret := if c = .socket then 3 else 0 }) [] =
    .ok (num 3, [(.listen 3 5, {}), (.bind 3 80, {}), (.reusePort 3, {}), (.noDelay 3, {}), (.socket, { ret := 3 })]) := rfl

/-- Example for the hypotheses of `C64_dup`: `(dup 3 1)`. -/
example : natDup (fun v => pure v) (ofList [num 3, num 1]) (fun _ _ => { ret := 1 }) [] =
    .ok (num 1, [(.dup2 3 1, { ret := 1 })]) := rfl

/-! ## C65: strings given to the system -/

theorem isString_strVal (cs : List Int) : (strVal cs).isString = true := by
  induction cs with
  | nil => rfl
  | cons c cs ih => simpa [strVal, ofList, Val.isString, Val.cons, isChr] using ih

/-- The C string for characters: at most `n` bytes, up to the first NUL. -/
def cstr (n : Nat) (cs : List Int) : List UInt8 := ((cs.take n).map byteOf).takeWhile (· ≠ 0)

theorem takeWhile_snoc_zero (l : List UInt8) : (l ++ [0]).takeWhile (· ≠ 0) = l.takeWhile (· ≠ 0) := by
  induction l with
  | nil => rfl
  | cons a l ih => simp only [List.cons_append, List.takeWhile_cons, ih]

theorem cbuffer_fits (cs : List Int) (n cap : Nat) (h : min cs.length n < cap) :
    Module.cbuffer (strVal cs) n cap = .ok (cstr n cs) := by
  unfold Module.cbuffer
  rw [C33_exact]
  simp only [Res.ok_bind, store]
  rw [if_pos (by simp; omega)]
  simp only [Res.ok_bind, takeWhile_snoc_zero, cstr]

/-- Text without NUL and within the limit is passed on unchanged. -/
theorem cstr_exact (n : Nat) (cs : List Int) (hn : cs.length ≤ n) (h0 : ∀ c ∈ cs, byteOf c ≠ 0) :
    cstr n cs = cs.map byteOf := by
  unfold cstr
  rw [List.take_of_length_le hn]
  induction cs with
  | nil => rfl
  | cons c cs ih =>
    have := h0 c (by simp)
    simp only [List.map_cons, List.takeWhile_cons]
    rw [if_pos (by simpa using this), ih (by simp at hn; omega) (fun d hd => h0 d (by simp [hd]))]

/-- A list of strings. -/
def strs (l : List (List Int)) : Val := ofList (l.map strVal)

theorem makeStrings_strs (cap len : Nat) (hc : len < cap) (l : List (List Int)) (idx : Nat) (hi : idx ≤ len) :
    makeStrings cap len (strs l) idx = .ok ((l.take (len - idx)).map (cstr Module.pathMax)) := by
  induction l generalizing idx with
  | nil => simp only [strs, List.map_nil, ofList, makeStrings]; rw [if_pos (by omega)]; simp
  | cons s l ih =>
    simp only [strs, List.map_cons, ofList, Val.cons, makeStrings]
    split
    · next h => subst h; rw [if_pos hc]; simp
    · next h =>
      rw [cbuffer_fits s _ _ (by omega)]
      simp only [Res.ok_bind]
      rw [if_pos (by omega)]
      have := ih (idx + 1) (by omega)
      simp only [strs] at this
      rw [this, show len - idx = (len - (idx + 1)) + 1 from by omega]
      simp

/-- **C65.** `exec` with any strings, of any number and length, stays within its arrays. It calls `execve` once, with the path also as
argument 0, then at most 126 arguments, and with at most 128 settings, or the environment of the caller if there is none. -/
theorem C65_exec (p : List Int) (as es : List (List Int)) (os : Sys) (t : Trace) :
    ∃ r l, natExec (strVal p) (strs as) (strs es) os t = .ok ((), l ++
      (.execve (cstr 4096 p) (cstr 4096 p :: (as.take 126).map (cstr 4096))
        (if es = [] then none else some ((es.take 128).map (cstr 4096))), r) :: t) ∧
      (r.ret = 0 → l = []) ∧ (r.ret ≠ 0 → ∃ r1 r2, l = [(.exit r.errno, r1), (.printError r.errno, r2)]) := by
  unfold natExec
  simp only [run_bind, run_lift]
  rw [cbuffer_fits p _ _ (by omega), makeStrings_strs 129 127 (by omega) as 1 (by omega),
    makeStrings_strs 129 128 (by omega) es 0 (by omega)]
  simp only [Res.ok_bind, run_sys, run_ite, run_pure, run_bind, List.length_map, Nat.sub_zero]
  have e : (if (es.take 128).length = 0 then none else some ((es.take 128).map (cstr Module.pathMax))) =
      (if es = [] then none else some ((es.take 128).map (cstr Module.pathMax))) := by
    cases es <;> simp
  rw [e]
  simp only [show Module.pathMax = 4096 from rfl, show 127 - 1 = 126 from rfl]
  generalize (if es = [] then none else some ((es.take 128).map (cstr 4096))) = env
  split
  · next h => exact ⟨_, [], rfl, fun _ => rfl, fun h' => absurd h h'⟩
  · next h => exact ⟨_, [_, _], rfl, fun h' => absurd h' h, fun _ => ⟨_, _, rfl⟩⟩

/-- **C65.** Not every argument reaches the program: the 127th and later ones are dropped silently. -/
theorem C65_exec_counterexample (p : List Int) (as : List (List Int)) (a : List Int) (h : as.length = 126) (os : Sys) (t : Trace) :
    natExec (strVal p) (strs (as ++ [a])) nil os t = natExec (strVal p) (strs as) nil os t := by
  unfold natExec
  simp only [run_bind, run_lift]
  rw [makeStrings_strs 129 127 (by omega) _ 1 (by omega), makeStrings_strs 129 127 (by omega) as 1 (by omega)]
  rw [show 127 - 1 = as.length from by omega, List.take_left, List.take_length]

/-- **C65.** `unlink` with a name of less than 4096 characters deletes the file of that name. -/
theorem C65_unlink_partial (cs : List Int) (h : cs.length < 4096) (h0 : ∀ c ∈ cs, byteOf c ≠ 0) (os : Sys) (t : Trace) :
    ∃ v r, natUnlink (strVal cs) os t = .ok (v, (.unlink (cs.map byteOf), r) :: t) ∧ (v = tru ↔ r.ret = 0) ∧
      (v = nil ↔ r.ret ≠ 0) := by
  unfold natUnlink
  rw [isString_strVal]
  simp only [Bool.not_true, Bool.false_eq_true, if_false, run_bind, run_lift]
  rw [cbuffer_fits cs _ _ (by simp only [Module.pathMax]; omega), cstr_exact _ _ (by simp only [Module.pathMax]; omega) h0]
  refine ⟨_, _, rfl, ?_, ?_⟩ <;> simp only [truth] <;> split <;> simp_all

/-- **C65.** Every longer name overruns the buffer. -/
theorem C65_unlink_counterexample (cs : List Int) (h : 4096 ≤ cs.length) (os : Sys) (t : Trace) :
    natUnlink (strVal cs) os t = .ub .outOfBounds := by
  unfold natUnlink
  rw [isString_strVal]
  simp only [Bool.not_true, Bool.false_eq_true, if_false, run_bind, run_lift, Module.cbuffer]
  rw [C33_exact]
  simp only [Res.ok_bind, store]
  rw [if_neg (by simp [Module.pathMax]; omega)]
  rfl

theorem buf1024_strVal (cs : List Int) :
    buf1024 (strVal cs) = if cs.length < 1024 then .ok (cstr 1024 cs, cs.length) else .ub .outOfBounds := by
  unfold buf1024
  rw [C33_exact]
  simp only [Res.ok_bind, store]
  by_cases h : cs.length < 1024
  · rw [if_pos h, if_pos (by simp; omega)]
    simp only [Res.ok_bind, takeWhile_snoc_zero, cstr]
    rw [Nat.min_eq_left (by omega)]
  · rw [if_neg h, if_neg (by simp; omega)]; rfl

/-- **C65.** `connect` with texts of less than 1024 characters ends, and asks for exactly this host and service; it connects
the socket that it has created to the address of the answer. -/
theorem C65_connect_partial (hs ss : List Int) (h1 : hs.length < 1024) (h2 : ss.length < 1024) (z1 : ∀ c ∈ hs, byteOf c ≠ 0)
    (z2 : ∀ c ∈ ss, byteOf c ≠ 0) (os : Sys) (t : Trace) :
    ∃ v es, natConnect (strVal hs) (strVal ss) os t = .ok (v, es ++ t) ∧
      (∀ a b r, (Call.getaddrinfo a b, r) ∈ es → a = hs.map byteOf ∧ b = ss.map byteOf) ∧
      (∀ fd x r, (Call.connect fd x, r) ∈ es → ∃ a b r', (Call.getaddrinfo a b, r') ∈ es ∧ r'.addr = x ∧ [fd] = es.flatMap created) := by
  unfold natConnect
  rw [isString_strVal, isString_strVal]
  simp only [Bool.and_self, Bool.not_true, Bool.false_eq_true, if_false, run_bind, run_lift]
  rw [buf1024_strVal, if_pos h1, buf1024_strVal, if_pos h2, cstr_exact _ _ (by omega) z1, cstr_exact _ _ (by omega) z2]
  simp only [Res.ok_bind, run_sys, run_ite, run_pure, run_bind, run_lift]
  split
  · exact ⟨_, [], rfl, by simp, by simp⟩
  split
  · exact ⟨_, [], rfl, by simp, by simp⟩
  split
  · exact ⟨_, [_], rfl, by simp, by simp⟩
  next h3 =>
  have h0 : 0 ≤ (os t .socket).ret := by omega
  split
  · exact ⟨_, [_, _, _], rfl, by simp, by simp⟩
  split
  · exact ⟨_, [_, _, _, _], rfl, by simp; intros; simp_all, by simp⟩
  split
  · exact ⟨_, [_, _, _, _, _], rfl, by simp; intros; simp_all, by
      intro fd x r hm
      simp only [List.mem_cons, Prod.mk.injEq, Call.connect.injEq, reduceCtorEq, false_and, false_or, or_false, List.not_mem_nil] at hm
      obtain ⟨⟨rfl, rfl⟩, rfl⟩ := hm
      exact ⟨_, _, _, .tail _ (.tail _ (.head _)), rfl, by simp [created, h0]⟩⟩
  · exact ⟨_, [_, _, _, _], rfl, by simp; intros; simp_all, by
      intro fd x r hm
      simp only [List.mem_cons, Prod.mk.injEq, Call.connect.injEq, reduceCtorEq, false_and, false_or, or_false, List.not_mem_nil] at hm
      obtain ⟨⟨rfl, rfl⟩, rfl⟩ := hm
      exact ⟨_, _, _, .tail _ (.head _), rfl, by simp [created, h0]⟩⟩

/-- **C65.** Every longer host name overruns the buffer. -/
theorem C65_connect_counterexample (hs ss : List Int) (h : 1024 ≤ hs.length) (os : Sys) (t : Trace) :
    natConnect (strVal hs) (strVal ss) os t = .ub .outOfBounds := by
  unfold natConnect
  rw [isString_strVal, isString_strVal]
  simp only [Bool.and_self, Bool.not_true, Bool.false_eq_true, if_false, run_bind, run_lift]
  rw [buf1024_strVal, if_neg (by omega)]
  rfl

/-- Example: the hypotheses hold for the name `a`. -/
example : ([97] : List Int).length < 1024 ∧ ∀ c ∈ ([97] : List Int), byteOf c ≠ 0 := by decide

/-! ## C66: select -/

theorem fdCheck_ok {n : Int} (h : 0 ≤ n ∧ n < 1024) : fdCheck n = .ok () := if_pos h
theorem fdCheck_bad {n : Int} (h : ¬ (0 ≤ n ∧ n < 1024)) : fdCheck n = .ub .outOfBounds := if_neg h

/-- A list of descriptors. -/
def nums (ns : List Int) : Val := ofList (ns.map num)

/-- Descriptors that fit into a set. -/
def Small (ns : List Int) : Prop := ∀ n ∈ ns, 0 ≤ n ∧ n < 1024

/-- **C66.** The set given to the system consists of the descriptors of the list, and the bound is above all of them. -/
theorem C66_set_partial (ns : List Int) (h : Small ns) :
    ∃ mx, selectSet (nums ns) = .ok (mx, ns) ∧ (∀ n ∈ ns, n ≤ mx) ∧ (mx = -1 ∨ mx ∈ ns) := by
  induction ns with
  | nil => exact ⟨-1, rfl, by simp, .inl rfl⟩
  | cons n ns ih =>
    obtain ⟨mx, e, hm, hx⟩ := ih (fun k hk => h k (by simp [hk]))
    have hn := h n (by simp)
    simp only [nums] at e
    refine ⟨if n > mx then n else mx, ?_, ?_, ?_⟩
    · simp only [nums, List.map_cons, ofList, Val.cons, selectSet]
      rw [if_pos ⟨hn.1, by omega⟩, e]
      simp only [fdCheck_ok hn, Res.ok_bind]
    · intro k hk
      rcases List.mem_cons.1 hk with rfl | hk
      · split <;> omega
      · have := hm k hk; split <;> omega
    · right
      split
      · simp
      · next hgt =>
        rcases hx with rfl | hx
        · omega
        · simp [hx]

/-- **C66.** One descriptor from 1024 on, anywhere in the list, makes `select` write outside of the set. -/
theorem C66_set_counterexample (ns ms : List Int) (n : Int) (h : Small ns) (hn : 1024 ≤ n) (hu : n < 4294967295) :
    selectSet (nums (ns ++ n :: ms)) = .ub .outOfBounds := by
  induction ns with
  | nil =>
    simp only [nums, List.nil_append, List.map_cons, ofList, Val.cons, selectSet]
    rw [if_pos ⟨by omega, hu⟩]
    rw [fdCheck_bad (by omega)]; rfl
  | cons k ns ih =>
    have hk := h k (by simp)
    have := ih (fun k hk => h k (by simp [hk]))
    simp only [nums] at this
    simp only [nums, List.cons_append, List.map_cons, ofList, Val.cons, selectSet]
    rw [if_pos ⟨hk.1, by omega⟩, this]
    simp only [fdCheck_ok hk, Res.ok_bind, Res.ub_bind]

/-- Computations only add to the history. -/
def Extends (ev : Val → U Val) : Prop := ∀ e os t v t', ev e os t = .ok (v, t') → ∃ es, t' = es ++ t

/-- **C66.** No descriptor is forgotten: after the callbacks, whatever they do, each descriptor of the list is in the result or has been
closed, and it is in the result if it was not ready. -/
theorem C66_kept_partial (ev : Val → U Val) (hev : Extends ev) (cb : Sym) (set ns : List Int) (h : Small ns) (os : Sys)
    (t t' : Trace) (v : Val) (hr : processR ev cb set (nums ns) os t = .ok (v, t')) :
    (∃ es, t' = es ++ t) ∧ ∃ l, v = ofList l ∧ ∀ n ∈ ns,
      num n ∈ l ∨ (n ∈ set ∧ ∃ r, (Call.close n, r) ∈ t') := by
  induction ns generalizing t v t' with
  | nil => cases hr; exact ⟨⟨[], rfl⟩, [], rfl, by simp⟩
  | cons n ns ih =>
    have hn := h n (by simp)
    have hs : Small ns := fun k hk => h k (by simp [hk])
    have hi : int32 n = n := by unfold int32; omega
    simp only [nums, List.map_cons, ofList, Val.cons, processR, run_bind] at hr
    obtain ⟨⟨act, t1⟩, ha, hr⟩ := Res.bind_eq_ok.1 hr
    have hact : (∃ es, t1 = es ++ t) ∧ (act = tru ∨ n ∈ set) := by
      simp only [action, run_bind, run_lift, fdCheck_ok hn, Res.ok_bind, run_ite, run_pure] at ha
      split at ha
      · next hm => exact ⟨hev _ _ _ _ _ ha, .inr hm⟩
      · cases ha; exact ⟨⟨[], rfl⟩, .inl rfl⟩
    obtain ⟨⟨es1, he1⟩, hset⟩ := hact
    have keep : ∀ (w : Val) (t2 : Trace), processR ev cb set (nums ns) os t1 = .ok (w, t2) →
        (∃ es, t2 = es ++ t) ∧ ∃ l, w = ofList l ∧ ∀ k ∈ ns, num k ∈ l ∨ (k ∈ set ∧ ∃ r, (Call.close k, r) ∈ t2) := by
      intro w t2 hw
      obtain ⟨⟨es, he⟩, l, hl, hk⟩ := ih hs _ _ _ hw
      exact ⟨⟨es ++ es1, by rw [he, he1, List.append_assoc]⟩, l, hl, hk⟩
    cases act with
    | num m =>
      simp only [run_bind] at hr
      obtain ⟨⟨w, t2⟩, hw, hr⟩ := Res.bind_eq_ok.1 hr
      obtain ⟨hx, l, hl, hk⟩ := keep w t2 hw
      simp only [run_lift, number, Res.ok_bind, run_pure] at hr
      cases hr
      refine ⟨hx, ?_⟩
      split
      · refine ⟨num m :: num n :: l, by simp [ofList, hl], ?_⟩
        intro k hk'
        rcases List.mem_cons.1 hk' with rfl | hk'
        · left; simp
        · rcases hk k hk' with h | h
          · left; simp [h]
          · right; exact h
      · refine ⟨num n :: l, by simp [ofList, hl], ?_⟩
        intro k hk'
        rcases List.mem_cons.1 hk' with rfl | hk'
        · left; simp
        · rcases hk k hk' with h | h
          · left; simp [h]
          · right; exact h
    | nil =>
      simp only [run_bind, run_lift, number, Res.ok_bind, run_sys, hi] at hr
      obtain ⟨⟨es, he⟩, l, hl, hk⟩ := ih hs _ _ _ hr
      refine ⟨⟨es ++ (Call.close n, os t1 (.close n)) :: es1, by rw [he, he1]; simp⟩, l, hl, ?_⟩
      intro k hk'
      rcases List.mem_cons.1 hk' with rfl | hk'
      · right
        refine ⟨?_, os t1 (.close k), by rw [he]; simp⟩
        rcases hset with h | h
        · cases h
        · exact h
      · exact hk k hk'
    | _ =>
      simp only [run_bind] at hr
      obtain ⟨⟨w, t2⟩, hw, hr⟩ := Res.bind_eq_ok.1 hr
      obtain ⟨hx, l, hl, hk⟩ := keep w t2 hw
      simp only [run_pure] at hr
      cases hr
      refine ⟨hx, num n :: l, by simp [ofList, hl], ?_⟩
      intro k hk'
      rcases List.mem_cons.1 hk' with rfl | hk'
      · left; simp
      · rcases hk k hk' with h | h
        · left; simp [h]
        · right; exact h

/-- What becomes of a descriptor, given the value of the callback. -/
def verdict (n : Int) : Val → List Int
  | num m => if n = m then [n] else [m, n]
  | nil => []
  | _ => [n]

/-- **C66.** With callbacks that make no calls the result is exact: a descriptor that is ready is replaced as its callback says, the others
stay, in order; the descriptors whose callback gives NIL are closed, and no others. -/
theorem C66_result_partial (ev : Val → U Val) (f : Int → Val) (cb : Sym) (set ns : List Int) (h : Small ns)
    (hev : ∀ n os t, ev (ofList [ofSym cb, num n]) os t = .ok (f n, t)) (os : Sys) (t : Trace) :
    ∃ es, processR ev cb set (nums ns) os t =
        .ok (nums (ns.flatMap fun n => if n ∈ set then verdict n (f n) else [n]), es ++ t) ∧
      es.reverse.map Prod.fst = (ns.filter fun n => n ∈ set ∧ f n = nil).map Call.close := by
  induction ns generalizing t with
  | nil => exact ⟨[], rfl, rfl⟩
  | cons n ns ih =>
    have hn := h n (by simp)
    have ih := ih (fun k hk => h k (by simp [hk]))
    have hi : int32 n = n := by unfold int32; omega
    have e1 : processR ev cb set (nums (n :: ns)) os t =
        ((if n ∈ set then (.ok (f n, t) : Res (Val × Trace)) else .ok (tru, t)) >>= fun p =>
          (match p.1 with
            | num m => do
              let nxt ← processR ev cb set (nums ns)
              let k ← U.lift (num n).number
              pure (if k ≠ m then cons p.1 (cons (num n) nxt) else cons (num n) nxt)
            | nil => do
              let k ← U.lift (num n).number
              let _ ← sys (.close (int32 k))
              processR ev cb set (nums ns)
            | _ => do
              let nxt ← processR ev cb set (nums ns)
              pure (cons (num n) nxt) : U Val) os p.2) := by
      have := hev n os t
      simp only [ofList] at this
      simp only [nums, List.map_cons, ofList, Val.cons, processR, run_bind, action, run_lift, fdCheck_ok hn,
        Res.ok_bind, run_ite, run_pure]
      split
      · simp only [Val.cons] at this; rw [this]; rfl
      · rfl
    rw [e1]
    by_cases hm : n ∈ set
    · rw [if_pos hm]
      simp only [Res.ok_bind, List.flatMap_cons, if_pos hm, List.filter_cons]
      cases hf : f n with
      | num m =>
        obtain ⟨es, he, hc⟩ := ih t
        refine ⟨es, ?_, by simpa [hm] using hc⟩
        simp only [run_bind, he, Res.ok_bind, run_lift, number, run_pure, verdict]
        split
        · simp_all [nums, ofList]
        · simp_all [nums, ofList]
      | nil =>
        obtain ⟨es, he, hc⟩ := ih ((Call.close n, os t (.close n)) :: t)
        refine ⟨es ++ [(Call.close n, os t (.close n))], ?_, ?_⟩
        · simp only [run_bind, run_lift, number, Res.ok_bind, run_sys, hi, he, verdict]
          simp
        · simp [hm, hc]
      | _ =>
        obtain ⟨es, he, hc⟩ := ih t
        refine ⟨es, ?_, by simpa [hm] using hc⟩
        simp only [run_bind, he, Res.ok_bind, run_pure, verdict]
        simp [nums, ofList]
    · rw [if_neg hm]
      obtain ⟨es, he, hc⟩ := ih t
      refine ⟨es, ?_, by simpa [hm] using hc⟩
      simp only [Res.ok_bind, run_bind, he, run_pure, List.flatMap_cons, if_neg hm]
      simp [nums, ofList]

/-- **C66.** The whole of `select` for a list of descriptors that reaches it: one call, for reading and for errors, with a bound that is one above the largest
descriptor; NIL if it fails, otherwise the list of what the callbacks `ON_READ` make of the descriptors ready for reading and what `ON_ERROR` make of
those with errors. -/
theorem C66_select_partial (ev : Val → Val → U Val) (fr fe : Int → Val) (k c : Val) (ns : List Int) (h : Small ns)
    (hr : ∀ n os t, ev c (ofList [ofSym onRead, num n]) os t = .ok (fr n, t))
    (he : ∀ n os t, ev c (ofList [ofSym onError, num n]) os t = .ok (fe n, t)) (os : Sys) (t : Trace) :
    ∃ b v es, natSelect ev (cons (cons k (nums ns)) c) os t = .ok (v, es ++ (.select b ns ns, os t (.select b ns ns)) :: t) ∧
      (∀ n ∈ ns, n < b) ∧ (b = 0 ∨ b - 1 ∈ ns) ∧
      ((os t (.select b ns ns)).ret < 0 → v = nil ∧ es = []) ∧
      (0 ≤ (os t (.select b ns ns)).ret →
        v = ofList [nums (ns.flatMap fun n => if n ∈ (os t (.select b ns ns)).rd then verdict n (fr n) else [n]),
          nums (ns.flatMap fun n => if n ∈ (os t (.select b ns ns)).er then verdict n (fe n) else [n])] ∧
        es.reverse.map Prod.fst = (ns.filter fun n => n ∈ (os t (.select b ns ns)).rd ∧ fr n = nil).map Call.close ++
          (ns.filter fun n => n ∈ (os t (.select b ns ns)).er ∧ fe n = nil).map Call.close) := by
  obtain ⟨mx, hs, hm, hx⟩ := C66_set_partial ns h
  have hl : (!((nums ns).isNil || (nums ns).isPair)) = false := by cases ns <;> rfl
  refine ⟨mx + 1, ?_⟩
  have e : natSelect ev (cons (cons k (nums ns)) c) os t =
      (if (os t (.select (mx + 1) ns ns)).ret < 0 then pure nil else (do
        let rres ← processR (ev c) onRead (os t (.select (mx + 1) ns ns)).rd (nums ns)
        let eres ← processR (ev c) onError (os t (.select (mx + 1) ns ns)).er (nums ns)
        pure (cons rres (cons eres nil))) : U Val) os
        ((.select (mx + 1) ns ns, os t (.select (mx + 1) ns ns)) :: t) := by
    simp only [Val.cons, natSelect, hl, Bool.false_eq_true, if_false, run_bind, run_lift, hs, Res.ok_bind, run_sys]
  have hb : (∀ n ∈ ns, n < mx + 1) ∧ (mx + 1 = 0 ∨ mx + 1 - 1 ∈ ns) := by
    refine ⟨fun n hn => by have := hm n hn; omega, ?_⟩
    rcases hx with h | h
    · left; omega
    · right; rw [show mx + 1 - 1 = mx from by omega]; exact h
  rw [e]
  by_cases hf : (os t (.select (mx + 1) ns ns)).ret < 0
  · rw [if_pos hf]
    exact ⟨nil, [], rfl, hb.1, hb.2, fun _ => ⟨rfl, rfl⟩, fun h => by omega⟩
  · rw [if_neg hf]
    obtain ⟨es1, e1, c1⟩ := C66_result_partial (ev c) fr onRead (os t (.select (mx + 1) ns ns)).rd ns h hr os
      ((.select (mx + 1) ns ns, os t (.select (mx + 1) ns ns)) :: t)
    obtain ⟨es2, e2, c2⟩ := C66_result_partial (ev c) fe onError (os t (.select (mx + 1) ns ns)).er ns h he os
      (es1 ++ (.select (mx + 1) ns ns, os t (.select (mx + 1) ns ns)) :: t)
    refine ⟨_, es2 ++ es1, ?_, hb.1, hb.2, fun h => by omega, fun _ => ⟨rfl, ?_⟩⟩
    · simp only [run_bind, e1, Res.ok_bind, e2, run_pure, ofList, List.append_assoc]
    · rw [List.reverse_append, List.map_append, c1, c2]

/-- **C66.** The list that `select` watches is not its first argument but its third one: `(select FDS CALLBACK NIL)`, as in `share/mnml/http.l:129`,
waits for the empty set, whatever `FDS` is. -/
theorem C66_watch_counterexample (ev : Val → Val → U Val) (env fds cb : Val) (os : Sys) (t : Trace)
    (h : 0 ≤ (os t (.select 0 [] [])).ret) :
    natSelect ev (Val.bind env selectArgs (ofList [fds, cb, nil])) os t =
      .ok (ofList [nil, nil], [(.select 0 [] [], os t (.select 0 [] []))] ++ t) := by
  have e : Val.bind env selectArgs (ofList [fds, cb, nil]) =
      cons (cons (ofSym onError) nil) (cons (cons (ofSym onRead) cb) (cons (cons (ofSym (symLit ['F', 'D', 'S'])) fds) env)) := rfl
  rw [e]
  have e2 : natSelect ev (cons (cons (ofSym onError) nil) (cons (cons (ofSym onRead) cb)
      (cons (cons (ofSym (symLit ['F', 'D', 'S'])) fds) env))) os t =
      (if (os t (.select 0 [] [])).ret < 0 then pure nil else pure (ofList [nil, nil]) : U Val) os
        ((.select 0 [] [], os t (.select 0 [] [])) :: t) := rfl
  rw [e2, if_neg (by omega)]
  rfl

/-- **C66.** An element that is no number makes `select` close a descriptor that nobody named: for NIL, descriptor 0. -/
theorem C66_close_counterexample (ev : Val → U Val) (cb : Sym) (set : List Int) (os : Sys) (t : Trace) :
    processR ev cb set (ofList [nil]) os t = .ok (nil, (.close 0, os t (.close 0)) :: t) := rfl

/-- Example for the hypotheses of `C66_result_partial` and `C66_kept_partial`. -/
example : Small [3, 4] ∧ Extends (fun _ => pure tru) :=
  ⟨by intro n hn; simp at hn; omega, fun _ _ _ _ _ h => by cases h; exact ⟨[], rfl⟩⟩

/-- Example for `C66_select_partial`: descriptors 3 and 4, both ready for reading; the callbacks give NIL. -/
example : natSelect (fun _ _ => pure nil) (cons (cons nil (nums [3, 4])) nil) (fun _ _ => { ret := 2, rd := [3, 4] }) [] =
    .ok (ofList [nil, nums [3, 4]], [(.close 4, { ret := 2, rd := [3, 4] }), (.close 3, { ret := 2, rd := [3, 4] }),
      (.select 5 [3, 4] [3, 4], { ret := 2, rd := [3, 4] })]) := rfl

/-! ## C67: success and failure -/

/-- A call that has failed, by the conventions of the system; the result of `close` is not looked at. -/
def Failed : Call × Rep → Prop
  | (.close _, _) => False
  | (.getaddrinfo _ _, r) => r.ret ≠ 0
  | (.connect _ _, r) => r.ret ≠ 0
  | (_, r) => r.ret < 0

/-- **C67.** `listen` gives NIL exactly if the port is refused or a call fails. -/
theorem C67_listen_partial (n : Int) (h0 : 0 ≤ n) (h1 : n < 65535) (os : Sys) (t : Trace) :
    ∃ v es, natListen (num n) os t = .ok (v, es ++ t) ∧ (v = nil ↔ ∃ p ∈ es, Failed p) := by
  unfold natListen
  simp only
  rw [if_neg (by omega)]
  simp only [run_bind, run_sys, run_ite, run_pure, Res.ok_bind]
  split
  · exact ⟨_, [_], rfl, by simp [Failed]; omega⟩
  split
  · exact ⟨_, [_, _, _], rfl, by simp [Failed]; omega⟩
  split
  · exact ⟨_, [_, _, _, _], rfl, by simp [Failed]; omega⟩
  split
  · exact ⟨_, [_, _, _, _, _], rfl, by simp [Failed]; omega⟩
  split
  · exact ⟨_, [_, _, _, _, _, _], rfl, by simp [Failed]; omega⟩
  · exact ⟨_, [_, _, _, _, _], rfl, by simp [Failed]; omega⟩

/-- **C67.** `connect` with texts that are not empty gives NIL exactly if a call fails. -/
theorem C67_connect_partial (hs ss : List Int) (h1 : hs.length < 1024) (h2 : ss.length < 1024) (n1 : hs ≠ []) (n2 : ss ≠ [])
    (os : Sys) (t : Trace) :
    ∃ v es, natConnect (strVal hs) (strVal ss) os t = .ok (v, es ++ t) ∧ (v = nil ↔ ∃ p ∈ es, Failed p) := by
  have l1 : hs.length ≠ 0 := by simpa using n1
  have l2 : ss.length ≠ 0 := by simpa using n2
  unfold natConnect
  rw [isString_strVal, isString_strVal]
  simp only [Bool.and_self, Bool.not_true, Bool.false_eq_true, if_false, run_bind, run_lift]
  rw [buf1024_strVal, if_pos h1, buf1024_strVal, if_pos h2]
  simp only [Res.ok_bind, run_sys, run_ite, run_pure, run_bind, run_lift, if_neg l1, if_neg l2]
  split
  · exact ⟨_, [_], rfl, by simp [Failed]; omega⟩
  split
  · exact ⟨_, [_, _, _], rfl, by simp [Failed]; omega⟩
  split
  · exact ⟨_, [_, _, _, _], rfl, by simp [Failed]; omega⟩
  split
  · exact ⟨_, [_, _, _, _, _], rfl, by simp [Failed]; omega⟩
  · exact ⟨_, [_, _, _, _], rfl, by simp [Failed]; omega⟩

/-- **C67.** `fork`, `dup` and `wait` give the error number as if it were a result: for every positive number there is a system where `fork` fails
and one where it succeeds that the program cannot tell apart. -/
theorem C67_fork_counterexample (e : Int) (he : 0 < e) (t : Trace) :
    ∃ os1 os2 : Sys, (os1 t .fork).ret < 0 ∧ 0 < (os2 t .fork).ret ∧
      ∃ v t1 t2, natFork os1 t = .ok (v, t1) ∧ natFork os2 t = .ok (v, t2) := by
  refine ⟨fun _ _ => { ret := -1, errno := e }, fun _ _ => { ret := e }, by simp, by simpa using he, num e,
    _, (.fork, { ret := e }) :: t, rfl, ?_⟩
  simp only [natFork, run_bind, run_sys, Res.ok_bind, run_pure]
  rw [if_neg (by omega)]

/-- **C67.** The same for `dup` with one descriptor. -/
theorem C67_dup_counterexample (fd e : Int) (he : 0 < e) (t : Trace) :
    ∃ os1 os2 : Sys, (os1 t (.dup (int32 fd))).ret < 0 ∧ 0 < (os2 t (.dup (int32 fd))).ret ∧
      ∃ v t1 t2, natDup (fun v => pure v) (ofList [num fd]) os1 t = .ok (v, t1) ∧
        natDup (fun v => pure v) (ofList [num fd]) os2 t = .ok (v, t2) := by
  refine ⟨fun _ _ => { ret := -1, errno := e }, fun _ _ => { ret := e }, by simp, by simpa using he, num e,
    _, (.dup (int32 fd), { ret := e }) :: t, rfl, ?_⟩
  show Res.ok (num (if e < 0 then 0 else e), _) = _
  rw [if_neg (by omega)]

/-- **C67.** The same for `wait`: an error number from 1 to 255 and an exit code. -/
theorem C67_wait_counterexample (pid : Int) (e : Nat) (h : e < 256) (t : Trace) :
    ∃ os1 os2 : Sys, (os1 t (.waitpid (int32 pid))).ret < 0 ∧ 0 ≤ (os2 t (.waitpid (int32 pid))).ret ∧
      ∃ v t1 t2, natWait (num pid) os1 t = .ok (v, t1) ∧ natWait (num pid) os2 t = .ok (v, t2) := by
  refine ⟨fun _ _ => { ret := -1, errno := e }, fun _ _ => { ret := 1, status := 256 * e }, by simp, by simp, num e, _,
    (.waitpid (int32 pid), { ret := 1, status := 256 * e }) :: t, rfl, ?_⟩
  simp only [natWait, run_bind, run_lift, number, run_sys, Res.ok_bind, run_ite, run_pure]
  rw [if_neg (by omega), if_pos (by omega), show (((256 * e : Nat) : Int) / 256 % 256) = e from by omega]

/-! ## C68: close and ports -/

/-- The evaluation of the arguments in order. -/
inductive Evals (ev : Val → U Val) (os : Sys) : List Val → Trace → List (Int × Rep) → Trace → Prop
  | nil (t) : Evals ev os [] t [] t
  | cons {a as t n t1 l t2} : ev a os t = .ok (num n, t1) →
      Evals ev os as ((.close (int32 n), os t1 (.close (int32 n))) :: t1) l t2 →
      Evals ev os (a :: as) t ((n, os t1 (.close (int32 n))) :: l) t2

/-- **C68.** `close` evaluates its arguments in order, closes each descriptor right after its evaluation, continues after a failure, and gives T
exactly if all calls succeeded. -/
theorem C68_close (ev : Val → U Val) (os : Sys) (as : List Val) (t t' : Trace) (l : List (Int × Rep)) (h : Evals ev os as t l t') :
    ∃ v, natClose ev (ofList as) os t = .ok (v, t') ∧ (v = tru ↔ ∀ p ∈ l, p.2.ret = 0) ∧ (v = nil ↔ ∃ p ∈ l, p.2.ret ≠ 0) := by
  have key : ∀ b, closeAll ev (ofList as) b os t = .ok (b && l.all fun p => p.2.ret = 0, t') := by
    induction h with
    | nil t => intro b; simp [ofList, closeAll, run_pure]
    | cons ha _ ih =>
      intro b
      simp only [ofList, Val.cons, closeAll, run_bind, ha, Res.ok_bind, run_lift, number, run_sys, ih]
      simp [Bool.and_assoc]
  refine ⟨truth (true && l.all fun p => p.2.ret = 0), by simp only [natClose, run_bind, key, Res.ok_bind, run_pure], ?_, ?_⟩
  · simp only [Bool.true_and, truth]
    split
    · next h => simpa using h
    · next h => simpa using h
  · simp only [Bool.true_and, truth]
    split
    · next h => simpa using h
    · next h => simpa using h

/-- **C68.** `listen` on a port below 65535 binds this port and no other, and the socket that it gives is the one bound. -/
theorem C68_port_partial (n : Int) (os : Sys) (t t' : Trace) (v : Val) (h : natListen (num n) os t = .ok (v, t')) :
    ∃ es, t' = es ++ t ∧ (∀ fd p r, (Call.bind fd p, r) ∈ es → (p : Int) = n ∧ p < 65535) ∧
      ∀ fd, v = num fd → ∃ r, (Call.bind fd n.toNat, r) ∈ es := by
  unfold natListen at h
  simp only at h
  split at h
  · cases h; exact ⟨[], rfl, by simp, by simp⟩
  next hn =>
  simp only [run_bind, run_sys, run_ite, run_pure, Res.ok_bind] at h
  split at h
  · cases h; exact ⟨[_], rfl, by simp, by simp⟩
  split at h
  · cases h; exact ⟨[_, _, _], rfl, by simp, by simp⟩
  split at h
  · cases h; exact ⟨[_, _, _, _], rfl, by simp, by simp⟩
  split at h
  · cases h; exact ⟨[_, _, _, _, _], rfl, by simp; intros; subst_vars; omega, by simp⟩
  split at h
  · cases h; exact ⟨[_, _, _, _, _, _], rfl, by simp; intros; subst_vars; omega, by simp⟩
  · cases h; exact ⟨[_, _, _, _, _], rfl, by simp; intros; subst_vars; omega, by simp⟩

/-- **C68.** The calls behind a descriptor that `listen` returns: the socket was made, given its two options, bound and put to
listen with a queue of 5, in this order, and each call succeeded. -/
theorem C68_listen (n fd : Int) (os : Sys) (t t' : Trace) (h : natListen (num n) os t = .ok (num fd, t')) :
    ∃ r₁ r₂ r₃ r₄ r₅ : Rep, t' = (.listen fd 5, r₅) :: (.bind fd n.toNat, r₄) :: (.reusePort fd, r₃) :: (.noDelay fd, r₂) ::
        (.socket, r₁) :: t ∧
      r₁.ret = fd ∧ 0 ≤ fd ∧ 0 ≤ r₂.ret ∧ 0 ≤ r₃.ret ∧ 0 ≤ r₄.ret ∧ 0 ≤ r₅.ret := by
  unfold natListen at h
  simp only at h
  split at h
  · cases h
  simp only [run_bind, run_sys, run_ite, run_pure, Res.ok_bind] at h
  split at h
  · cases h
  split at h
  · cases h
  split at h
  · cases h
  split at h
  · cases h
  split at h
  · cases h
  · cases h
    exact ⟨_, _, _, _, _, rfl, rfl, by omega, by omega, by omega, by omega, by omega⟩

/-- **C68.** The valid port 65535 is refused without any call. -/
theorem C68_port_counterexample (os : Sys) (t : Trace) : natListen (num 65535) os t = .ok (nil, t) := rfl

/-- Example: `(close 3 4)` with arguments that evaluate to themselves. -/
example (os : Sys) : Evals (fun v => pure v) os [num 3] [] [(3, os [] (.close 3))] [(.close 3, os [] (.close 3))] :=
  .cons rfl (.nil _)

/-! ## C69: wait and time -/

/-- **C69.** A child that exits with code `c` makes `wait` return `c`; a child ended by a signal makes it return NIL. -/
theorem C69_wait (pid : Int) (os : Sys) (t : Trace) (h : 0 ≤ (os t (.waitpid (int32 pid))).ret) :
    (∀ c : Nat, c < 256 → (os t (.waitpid (int32 pid))).status = 256 * c →
      ∃ t', natWait (num pid) os t = .ok (num c, t')) ∧
    (∀ s core : Nat, 0 < s → s < 127 → (os t (.waitpid (int32 pid))).status = s + 128 * core →
      ∃ t', natWait (num pid) os t = .ok (nil, t')) := by
  simp only [natWait, run_bind, run_lift, number, run_sys, Res.ok_bind, run_ite, run_pure]
  rw [if_neg (by omega)]
  constructor
  · intro c hc e
    refine ⟨(.waitpid (int32 pid), os t (.waitpid (int32 pid))) :: t, ?_⟩
    rw [if_pos (by omega), e, show (((256 * c : Nat) : Int) / 256 % 256) = c from by omega]
  · intro s core h0 h1 e
    refine ⟨(.waitpid (int32 pid), os t (.waitpid (int32 pid))) :: t, ?_⟩
    rw [if_neg (by omega)]

/-- **C69.** `time` evaluates the expression once, between two readings of the clock, and gives the exact difference if it is less than 2^63 ns, even
if the counter of 64 bits wraps around in between. -/
theorem C69_time (ev : Val → U Val) (e rest v : Val) (os : Sys) (t t1 : Trace) (tc : Bool)
    (he : ev e os ((.clock, os t .clock) :: t) = .ok (v, t1)) (hm : (os t .clock).now ≤ (os t1 .clock).now)
    (hd : (os t1 .clock).now - (os t .clock).now < 2 ^ 63) :
    natTime ev (pair tc e rest) os t =
      .ok (num ((os t1 .clock).now - (os t .clock).now : Nat), (.clock, os t1 .clock) :: t1) := by
  simp only [natTime, run_bind, run_sys, Res.ok_bind, isNil, Bool.false_eq_true, if_false, Val.car, he, run_pure]
  have : ((os t1 .clock).now % 2 ^ 64 + 2 ^ 64 - (os t .clock).now % 2 ^ 64) % 2 ^ 64 =
      (os t1 .clock).now - (os t .clock).now := by omega
  rw [this]
  unfold int64
  rw [Nat.mod_eq_of_lt (by omega), if_pos hd]

/-- **C69.** Without an argument it gives the clock. -/
theorem C69_now (ev : Val → U Val) (os : Sys) (t : Trace) (h : (os t .clock).now < 2 ^ 63) :
    natTime ev nil os t = .ok (num (os t .clock).now, (.clock, os t .clock) :: t) := by
  simp only [natTime, run_bind, run_sys, Res.ok_bind, isNil, if_true, run_pure]
  unfold int64
  rw [Nat.mod_eq_of_lt (by omega), if_pos h]

/-- Example for the hypotheses of `C69_time`: a clock that advances by 7 with each call. -/
example : natTime (fun v => pure v) (ofList [num 1]) (fun t _ => { now := 7 * t.length }) [] =
    .ok (num 7, [(.clock, { now := 7 }), (.clock, { now := 0 })]) := rfl

/-- Example for `C69_wait`: exit code 2. -/
example : natWait (num 5) (fun _ _ => { ret := 5, status := 512 }) [] =
    .ok (num 2, [(.waitpid 5, { ret := 5, status := 512 })]) := rfl

end Unix
end Mnml
