import Verif.Opts
import Verif.PropMain

/-!
# C88: the options of the command line
-/

namespace Mnml
namespace Opts

/-- An argument with options, as it is written: letters, and possibly an expression in the same argument or in the next one. -/
inductive Word where
  | letters (c : UInt8) (cs : Str)
  | attached (cs : Str) (b : UInt8) (e : Str)
  | separate (cs : Str) (e : Str)

/-- The arguments of a word. -/
def Word.args : Word → List Str
  | .letters c cs => [45 :: c :: cs]
  | .attached cs b e => [45 :: (cs ++ 101 :: b :: e)]
  | .separate cs e => [45 :: (cs ++ [101]), e]

/-- The options of a word. -/
def Word.opts : Word → List Opt
  | .letters c cs => .flag c :: cs.map .flag
  | .attached cs b e => cs.map .flag ++ [.expr (b :: e)]
  | .separate cs e => cs.map .flag ++ [.expr e]

/-- One of the letters `b`, `d`, `h`, `v`. -/
def letter (c : UInt8) : Bool := [98, 100, 104, 118].contains c

/-- The letters of a word are among `b`, `d`, `h`, `v`. -/
def Word.ok : Word → Bool
  | .letters c cs => letter c && cs.all letter
  | .attached cs _ _ => cs.all letter
  | .separate cs _ => cs.all letter

theorem letter_eq : letter = isFlag := by
  funext c
  rw [Bool.eq_iff_iff]
  simp only [letter, isFlag, List.contains_cons, List.contains_nil, Bool.or_eq_true, beq_iff_eq, Bool.or_false, decide_eq_true_eq]
  constructor
  · rintro (h | h | h | h) <;> simp [h]
  · rintro (((h | h) | h) | h) <;> simp [h]

/-- The arguments after the options: introduced by `--`, or the first is `-` or does not begin with `-`. -/
inductive Operands : List Str → List Str → Prop where
  | dashes (as : List Str) : Operands ([45, 45] :: as) as
  | none : Operands [] []
  | minus (as : List Str) : Operands ([45] :: as) ([45] :: as)
  | empty (as : List Str) : Operands ([] :: as) ([] :: as)
  | plain (c : UInt8) (a : Str) (as : List Str) : c ≠ 45 → Operands ((c :: a) :: as) ((c :: a) :: as)

theorem scan_flags {l : Str} (r : Str) (h : l.all letter = true) : scan (l ++ r) = (l.map .flag ++ (scan r).1, (scan r).2) := by
  induction l with
  | nil => rfl
  | cons c l ih =>
    simp only [List.all_cons, Bool.and_eq_true] at h
    have hc : c ≠ 101 := by rintro rfl; simp [letter] at h
    have hf : isFlag c = true := by rw [← letter_eq]; exact h.1
    simp only [List.cons_append, scan, if_neg hc, ih h.2, hf, if_true, List.map_cons]

theorem getopt_operands {as os : List Str} (h : Operands as os) : getopt as = ([], os) := by
  cases h with
  | dashes => simp [getopt]
  | none => rfl
  | minus => rfl
  | empty => rfl
  | plain c a as h =>
    unfold getopt
    split
    · rename_i e; cases e
    · rename_i e; simp only [List.cons.injEq] at e; exact absurd e.1.1 h
    · rename_i e; cases e; rfl

/-- An argument `-…` that is not `--`. -/
theorem getopt_dash {t : Str} {as : List Str} (ht : t ≠ []) (hd : t ≠ [45]) : getopt ((45 :: t) :: as) =
    if (scan t).2 then
      match as with
      | [] => ((scan t).1 ++ [.bad], [])
      | a :: as => ((scan t).1 ++ .expr a :: (getopt as).1, (getopt as).2)
    else ((scan t).1 ++ (getopt as).1, (getopt as).2) := by
  cases t with
  | nil => exact absurd rfl ht
  | cons c cs =>
    have : ¬ (c = 45 ∧ cs = []) := by rintro ⟨rfl, rfl⟩; exact hd rfl
    rw [getopt, if_neg this]
    rfl

theorem getopt_word {w : Word} (h : w.ok = true) (as : List Str) : getopt (w.args ++ as) = (w.opts ++ (getopt as).1, (getopt as).2) := by
  have key : ∀ (cs r : Str), cs.all letter = true → r ≠ [] → (∀ b, r ≠ [b] ∨ b ≠ 45) → cs ++ r ≠ [45] := by
    intro cs r hc hr hb e
    cases cs with
    | nil => rcases hb 45 with x | x; exact x e; exact x rfl
    | cons c cs =>
      simp only [List.cons_append, List.cons.injEq, List.append_eq_nil_iff] at e
      exact hr e.2.2
  cases w with
  | letters c cs =>
    simp only [Word.ok, Bool.and_eq_true] at h
    have hall : (c :: cs).all letter = true := by simp [h.1, h.2]
    have hs := scan_flags [] hall
    simp only [List.append_nil] at hs
    have hd : c :: cs ≠ [45] := by intro e; cases e; simp [letter] at h
    show getopt ((45 :: c :: cs) :: as) = _
    rw [getopt_dash (by simp) hd, hs]
    simp [scan, Word.opts]
  | attached cs b e =>
    have hs := scan_flags (101 :: b :: e) h
    show getopt ((45 :: (cs ++ 101 :: b :: e)) :: as) = _
    rw [getopt_dash (by simp) (key cs _ h (by simp) (by simp)), hs]
    simp [scan, Word.opts]
  | separate cs e =>
    have hs := scan_flags [101] h
    show getopt ((45 :: (cs ++ [101])) :: e :: as) = _
    rw [getopt_dash (by simp) (key cs _ h (by simp) ?_), hs]
    · simp [scan, Word.opts]
    · intro b
      by_cases hb : b = 45
      · left; subst hb; simp
      · right; exact hb

/-- **C88**: options in any way of writing are recognised, up to the operands, which are left alone. -/
theorem C88_options {ws : List Word} (hw : ∀ w ∈ ws, w.ok = true) {as ops : List Str} (ho : Operands as ops) :
    getopt (ws.flatMap Word.args ++ as) = (ws.flatMap Word.opts, ops) := by
  induction ws with
  | nil => simpa using getopt_operands ho
  | cons w ws ih =>
    rw [List.flatMap_cons, List.append_assoc, getopt_word (hw w (by simp)), ih fun x hx => hw x (by simp [hx])]
    rfl

theorem scan_split : ∀ t : Str, (scan t).1.contains .bad = true ∨
    (∃ cs : Str, cs.all letter = true ∧ t = cs ∧ scan t = (cs.map .flag, false)) ∨
    (∃ (cs : Str) (b : UInt8) (e : Str), cs.all letter = true ∧ t = cs ++ 101 :: b :: e ∧ scan t = (cs.map .flag ++ [.expr (b :: e)], false)) ∨
    (∃ cs : Str, cs.all letter = true ∧ t = cs ++ [101] ∧ scan t = (cs.map .flag, true)) := by
  intro t
  induction t with
  | nil => right; left; exact ⟨[], rfl, rfl, rfl⟩
  | cons c t ih =>
    by_cases hc : c = 101
    · subst hc
      cases t with
      | nil => right; right; right; exact ⟨[], rfl, rfl, rfl⟩
      | cons b e => right; right; left; exact ⟨[], b, e, rfl, rfl, by simp [scan]⟩
    · have he : isFlag c = letter c := by rw [letter_eq]
      cases hf : letter c with
      | false => left; simp [scan, hc, he, hf]
      | true =>
        rcases ih with h | ⟨cs, h1, h2, h3⟩ | ⟨cs, b, e, h1, h2, h3⟩ | ⟨cs, h1, h2, h3⟩
        · left
          simp only [scan, if_neg hc, he, hf, if_true, List.contains_cons, h, Bool.or_true]
        · right; left
          exact ⟨c :: cs, by simp [hf, h1], by rw [h2], by simp [scan, hc, he, hf, h3]⟩
        · right; right; left
          exact ⟨c :: cs, b, e, by simp [hf, h1], by rw [h2]; rfl, by simp [scan, hc, he, hf, h3]⟩
        · right; right; right
          exact ⟨c :: cs, by simp [hf, h1], by rw [h2]; rfl, by simp [scan, hc, he, hf, h3]⟩

/-- **C88**: every command line is either written in one of these ways or has an option that is not known or lacks its argument. -/
theorem C88_complete (args : List Str) : (getopt args).1.contains .bad = true ∨
    ∃ (ws : List Word) (as ops : List Str), (∀ w ∈ ws, w.ok = true) ∧ Operands as ops ∧ args = ws.flatMap Word.args ++ as := by
  have main : ∀ (n : Nat) (args : List Str), args.length ≤ n → (getopt args).1.contains .bad = true ∨
      ∃ (ws : List Word) (as ops : List Str), (∀ w ∈ ws, w.ok = true) ∧ Operands as ops ∧ args = ws.flatMap Word.args ++ as := by
    intro n
    induction n with
    | zero =>
      intro args h
      cases args with
      | nil => right; exact ⟨[], [], [], by simp, .none, rfl⟩
      | cons a as => simp at h
    | succ n ih =>
      intro args hl
      have stop : ∀ {as ops : List Str}, Operands as ops → (getopt as).1.contains .bad = true ∨
          ∃ (ws : List Word) (as' ops : List Str), (∀ w ∈ ws, w.ok = true) ∧ Operands as' ops ∧ as = ws.flatMap Word.args ++ as' :=
        fun h => .inr ⟨[], _, _, by simp, h, rfl⟩
      have add : ∀ (w : Word) (rest : List Str), w.ok = true → rest.length ≤ n → (getopt (w.args ++ rest)).1.contains .bad = true ∨
          ∃ (ws : List Word) (as' ops : List Str), (∀ w ∈ ws, w.ok = true) ∧ Operands as' ops ∧ w.args ++ rest = ws.flatMap Word.args ++ as' := by
        intro w rest hw hr
        rcases ih rest hr with h | ⟨ws, as', ops, h1, h2, h3⟩
        · left
          rw [getopt_word hw]
          simp only [List.contains_eq_mem, decide_eq_true_eq, List.mem_append] at h ⊢
          exact .inr h
        · right
          refine ⟨w :: ws, as', ops, ?_, h2, by rw [h3, List.flatMap_cons, List.append_assoc]⟩
          intro x hx
          rcases List.mem_cons.1 hx with rfl | hx
          · exact hw
          · exact h1 x hx
      cases args with
      | nil => exact stop .none
      | cons a as =>
        have hl' : as.length ≤ n := by simpa using hl
        cases a with
        | nil => exact stop (.empty as)
        | cons c t =>
          by_cases hc : c = 45
          · subst hc
            by_cases ht : t = []
            · subst ht; exact stop (.minus as)
            · by_cases hd : t = [45]
              · subst hd; exact stop (.dashes as)
              · rcases scan_split t with h | ⟨cs, h1, h2, h3⟩ | ⟨cs, b, e, h1, h2, h3⟩ | ⟨cs, h1, h2, h3⟩
                · left
                  rw [getopt_dash ht hd]
                  simp only [List.contains_eq_mem, decide_eq_true_eq] at h ⊢
                  split
                  · cases as <;> simp [h]
                  · simp [h]
                · subst h2
                  cases t with
                  | nil => exact absurd rfl ht
                  | cons b bs =>
                    exact add (.letters b bs) as (by simpa [Word.ok] using h1) hl'
                · subst h2
                  exact add (.attached cs b e) as h1 hl'
                · subst h2
                  cases as with
                  | nil =>
                    left
                    rw [getopt_dash ht hd, h3]
                    simp
                  | cons x as =>
                    exact add (.separate cs x) as h1 (by simp at hl'; omega)
          · exact stop (.plain c t as hc)
  exact main args.length args (Nat.le_refl _)

/-- The expression of the last `-e`. -/
def lastExpr (os : List Opt) : Option Str := (os.filterMap fun | .expr a => some a | _ => none).getLast?

theorem process_run : ∀ (os : List Opt) (b d : Bool) (e : Option Str),
    (∀ o ∈ os, o = .flag 98 ∨ o = .flag 100 ∨ ∃ a, o = .expr a) →
    process os b d e = .run (b || os.contains (.flag 98)) (d || os.contains (.flag 100)) ((lastExpr os).or e) := by
  intro os
  induction os with
  | nil => intros; simp [process, lastExpr]
  | cons o os ih =>
    intro b d e h
    have h' : ∀ o ∈ os, o = .flag 98 ∨ o = .flag 100 ∨ ∃ a, o = .expr a := fun x hx => h x (by simp [hx])
    rcases h o (by simp) with rfl | rfl | ⟨a, rfl⟩
    · rw [process, if_pos rfl, ih _ _ _ h']; simp [lastExpr]
    · rw [process, if_neg (by decide), if_pos rfl, ih _ _ _ h']; simp [lastExpr]
    · rw [process, ih _ _ _ h']
      have : (lastExpr (.expr a :: os)).or e = (lastExpr os).or (some a) := by
        simp only [lastExpr, List.filterMap_cons]
        cases hl : (os.filterMap fun | .expr a => some a | _ => none) with
        | nil => simp
        | cons x l => simp [List.getLast?_eq_some_getLast]
      rw [this]
      simp

theorem process_stop : ∀ (os : List Opt) (o : Opt) (rest : List Opt) (b d : Bool) (e : Option Str),
    (∀ o ∈ os, o = .flag 98 ∨ o = .flag 100 ∨ ∃ a, o = .expr a) → ∃ b' d' e', process (os ++ o :: rest) b d e = process (o :: rest) b' d' e' := by
  intro os o rest
  induction os with
  | nil => intro b d e _; exact ⟨b, d, e, rfl⟩
  | cons x os ih =>
    intro b d e h
    have h' : ∀ o ∈ os, o = .flag 98 ∨ o = .flag 100 ∨ ∃ a, o = .expr a := fun x hx => h x (by simp [hx])
    rcases h x (by simp) with rfl | rfl | ⟨a, rfl⟩
    · rw [List.cons_append, process, if_pos rfl]; exact ih _ _ _ h'
    · rw [List.cons_append, process, if_neg (by decide), if_pos rfl]; exact ih _ _ _ h'
    · rw [List.cons_append, process]; exact ih _ _ _ h'

section
variable {os : Module.Os} {ev : Val → M Val} {n : Nat} {b : Module.Build} {environ : List Str} {cwd input : Str}
  {leak : Val → Module.SSt → Bool}

/-- **C88**: with options `-b`, `-d` and `-e` only, the program runs: without defaults if there is a `-b`, with the expression of the last `-e`, and
with the operands as file and `ARGV`. The exit status is 0 exactly if the value is not NIL and there is no `-d` or nothing is
left in the slab; otherwise it is 254 if `-d` finds something left, and 255 if not. -/
theorem C88_run {ws : List Word} (hw : ∀ w ∈ ws, w.ok = true) {as ops : List Str} (ho : Operands as ops)
    (hr : ∀ o ∈ ws.flatMap Word.opts, o = .flag 98 ∨ o = .flag 100 ∨ ∃ a, o = .expr a) {status : Int} {r : Val} {s : Module.SSt}
    (h : Module.main os ev n b ⟨(ws.flatMap Word.opts).contains (.flag 98), lastExpr (ws.flatMap Word.opts), ops, environ, cwd, input⟩ =
      .ok (status, r, s)) :
    program os ev n b environ cwd input leak (ws.flatMap Word.args ++ as) = .ok
      (if (ws.flatMap Word.opts).contains (.flag 100) && leak r s then 254 else if r.isNil then 255 else 0, some (r, s)) := by
  have hs : status = if r.isNil then -1 else 0 := by
    unfold Module.main at h
    obtain ⟨s0, _, h⟩ := Res.bind_eq_ok.1 h
    split at h
    · obtain ⟨⟨r', s'⟩, _, h⟩ := Res.bind_eq_ok.1 h
      cases h
      rfl
    · obtain ⟨⟨r', s'⟩, _, h⟩ := Res.bind_eq_ok.1 h
      cases h
      rfl
    · obtain ⟨⟨r', s'⟩, _, h⟩ := Res.bind_eq_ok.1 h
      cases h
      rfl
  unfold program
  rw [C88_options hw ho]
  simp only [process_run _ false false none hr, Bool.false_or, Option.or_none, h, Res.ok_bind]
  rw [hs]
  cases (ws.flatMap Word.opts).contains (.flag 100) && leak r s <;> cases r.isNil <;> rfl

/-- **C88**: the first option that is not `-b`, `-d` or `-e` decides, whatever follows: nothing is run, and the exit status is 0 for `-h` and `-v` and
not 0 for an option that is not known or lacks its argument. -/
theorem C88_stop {args : List Str} {pre rest : List Opt} {o : Opt} (h : (getopt args).1 = pre ++ o :: rest)
    (hp : ∀ o ∈ pre, o = .flag 98 ∨ o = .flag 100 ∨ ∃ a, o = .expr a) (ho : o = .flag 104 ∨ o = .flag 118 ∨ o = .bad) :
    ∃ status, program os ev n b environ cwd input leak args = .ok (status, none) ∧ (status = 0 ↔ o ≠ .bad) := by
  unfold program
  rw [h]
  obtain ⟨b', d', e', hs⟩ := process_stop pre o rest false false none hp
  rw [hs]
  rcases ho with rfl | rfl | rfl
  · exact ⟨0, rfl, by simp⟩
  · exact ⟨0, rfl, by simp⟩
  · exact ⟨17, rfl, by simp⟩

end

/-! ### Examples -/

/-- `-bd -eA -e B -- -h`: the hypotheses of `C88_options` and `C88_run`. -/
example : (∀ w ∈ [Word.letters 98 [100], .attached [] 65 [], .separate [] [66]], w.ok = true) ∧ Operands [[45, 45], [45, 104]] [[45, 104]] ∧
    (∀ o ∈ [Word.letters 98 [100], .attached [] 65 [], .separate [] [66]].flatMap Word.opts, o = .flag 98 ∨ o = .flag 100 ∨ ∃ a, o = .expr a) ∧
    [Word.letters 98 [100], .attached [] 65 [], .separate [] [66]].flatMap Word.args ++ [[45, 45], [45, 104]] =
      [[45, 98, 100], [45, 101, 65], [45, 101], [66], [45, 45], [45, 104]] ∧
    lastExpr ([Word.letters 98 [100], .attached [] 65 [], .separate [] [66]].flatMap Word.opts) = some [66] := by
  refine ⟨by decide, .dashes _, ?_, by decide, by decide⟩
  simp [Word.opts]

/-- `mnml -d -e 7` returns 7: the status is 0, or 254 if something is left in the slab; `mnml -e '()'` has the status 255. -/
example : ((program Module.demoStd (evalN 10 Val.nil) 10 Module.demoBuild [] [47] [] (fun _ _ => false) [[45, 100], [45, 101], [55]]).bind
      fun q => .ok (q.1, q.2.map Prod.fst)) = .ok (0, some (Val.num 7)) ∧
    ((program Module.demoStd (evalN 10 Val.nil) 10 Module.demoBuild [] [47] [] (fun _ _ => true) [[45, 100], [45, 101], [55]]).bind
      fun q => .ok (q.1, q.2.map Prod.fst)) = .ok (254, some (Val.num 7)) ∧
    ((program Module.demoStd (evalN 10 Val.nil) 10 Module.demoBuild [] [47] [] (fun _ _ => true) [[45, 101, 40, 41]]).bind
      fun q => .ok (q.1, q.2.map Prod.fst)) = .ok (255, some Val.nil) := by
  decide +kernel

/-- `-bx -h` and `-d -e`: the hypothesis of `C88_stop`; the status is 17. -/
example : (getopt [[45, 98, 120], [45, 104]]).1 = [.flag 98] ++ .bad :: [.flag 104] ∧ (getopt [[45, 100], [45, 101]]).1 = [.flag 100] ++ .bad :: [] ∧
    exitCode 273 = 17 := by decide

/-- `-e` takes the next argument whatever it is, also `--`; `--version` is a bad option. -/
example : getopt [[45, 101], [45, 45], [45, 98]] = ([.expr [45, 45], .flag 98], []) ∧ (getopt [[45, 45, 118]]).1 = [.bad, .flag 118] := by decide

end Opts
end Mnml
