import Verif.ParseErr
import Verif.PropRead

/-!
# Malformed expressions (C76)
-/

namespace Mnml
namespace Lex

/-! ## Definitions for the statements -/

/-- Tokens after which the lexer looks whether the expression is complete: all but the opening parenthesis, the dot and the prefixes. -/
def Token.ends : Token → Bool
  | .popen | .dot | .quote | .backt | .tilde => false
  | _ => true

/-- The number of times that the parentheses of a text are balanced after a token that ends an expression, from a given depth. -/
def blocks : Nat → List Token → Nat
  | _, [] => 0
  | d, .popen :: ts => blocks (d + 1) ts
  | 0, .pclose :: _ => 0
  | 1, .pclose :: ts => blocks 0 ts + 1
  | d + 2, .pclose :: ts => blocks (d + 1) ts
  | 0, t :: ts => blocks 0 ts + (if t.ends then 1 else 0)
  | d + 1, _ :: ts => blocks (d + 1) ts

/-! ## The states that occur -/

/-- An open list as the grammar allows it; only the innermost one may be complete but for its parenthesis. -/
def Frame.sound (top : Bool) (f : Frame) : Bool :=
  match f.items, f.dot, f.pre with
  | _, some (some _), none => top
  | _, some (some _), some _ => false
  | some _, none, some .tilde => true
  | _, _, some .tilde => false
  | _, _, _ => true

def soundAll : List Frame → Bool
  | [] => true
  | f :: fs => f.sound true && fs.all (Frame.sound false)

def soundSt (fs : List Frame) (pre : Option Pre) : Bool := soundAll fs && decide (pre ≠ some .tilde)

def Stk.Sound : Stk → Prop
  | .full _ => True
  | .part fs pre => soundSt fs pre = true

theorem sound_weak {f : Frame} (h : f.sound false = true) : f.sound true = true := by
  obtain ⟨i, d, p⟩ := f
  cases i <;> rcases d with _ | _ | _ <;> rcases p with _ | _ | _ | _ <;> simp_all [Frame.sound]

theorem sound_wants {f : Frame} {fs : List Frame} (h : f.sound true = true) (w : wants (f :: fs) = true) : f.sound false = true := by
  obtain ⟨i, d, p⟩ := f
  cases i <;> rcases d with _ | _ | _ <;> rcases p with _ | _ | _ | _ <;> simp_all [Frame.sound, wants]

theorem sound_tail {fs : List Frame} (h : fs.all (Frame.sound false) = true) : soundAll fs = true := by
  cases fs with
  | nil => rfl
  | cons f fs =>
    simp only [List.all_cons, Bool.and_eq_true] at h
    simp [soundAll, sound_weak h.1, h.2]

/-- An item that is added to a list leaves it sound. -/
theorem add_sound {ev : Val → Res Val} {f f' : Frame} {v : Val} (h : f.add ev v = .ok f') : f'.sound true = true := by
  obtain ⟨i, d, p⟩ := f
  cases i <;> rcases d with _ | _ | _ <;> rcases p with _ | _ | _ | _ <;>
    simp only [Frame.add, applyPre, Res.ok_bind, Res.ok.injEq, reduceCtorEq] at h <;>
    first
      | (subst h; rfl)
      | exact absurd h (by simp)
      | (cases e : ev v <;> simp [e, bind, Res.bind] at h; subst h; rfl)

/-- What can be added to a list when the evaluator always gives a value. -/
theorem add_total {ev : Val → Res Val} (he : ∀ v, ∃ w, ev v = .ok w) {f : Frame} (h : f.sound false = true) (v : Val) :
    ∃ f', f.add ev v = .ok f' := by
  obtain ⟨i, d, p⟩ := f
  obtain ⟨w, e⟩ := he v
  cases i <;> rcases d with _ | _ | _ <;> rcases p with _ | _ | _ | _ <;>
    simp_all [Frame.sound, Frame.add, applyPre]

/-- The value of a token that is an item. -/
def Token.atom : Token → Option Val
  | .num n => some (.num n)
  | .chr c => some (.chr c)
  | .str b => some (strVal (makeString (b.takeWhile (· ≠ 0)) (b.takeWhile (· ≠ 0)).length))
  | .nil => some .nil
  | .tru => some .tru
  | .wild => some .wild
  | .sym s => some (.ofSym s)
  | _ => none

theorem shift_atom (ev : Val → Res Val) (fs : List Frame) (pre : Option Pre) {t : Token} {v : Val} (h : t.atom = some v) :
    (Stk.part fs pre).shift ev t = if wants fs then some (Stk.item ev fs pre v) else none := by
  cases t <;> cases h <;> rfl

theorem feed_atom (ev : Val → Res Val) (st : PSt) {t : Token} {v : Val} (h : t.atom = some v) : feed ev st t = complete ev st v := by
  cases t <;> cases h <;> rfl

theorem step_atom (ev : Val → Res Val) (s : Rd) {t : Token} {v : Val} (h : t.atom = some v) :
    s.step ev t = (s.eat ev t >>= fun s' => .ok (some s'.consume)) := by
  cases t <;> simp [Token.atom] at h <;> rfl

theorem atom_cases (t : Token) : t = .popen ∨ t = .pclose ∨ t = .dot ∨ t = .quote ∨ t = .backt ∨ t = .tilde ∨ ∃ v, t.atom = some v := by
  cases t <;> simp [Token.atom]

theorem item_sound {ev : Val → Res Val} {fs : List Frame} {pre : Option Pre} {v : Val} {k : Stk}
    (hs : fs.all (Frame.sound false) = true) (hp : pre ≠ some .tilde) (h : Stk.item ev fs pre v = .ok k) : k.Sound := by
  cases fs with
  | nil =>
    unfold Stk.item at h
    cases e : applyPre ev pre v <;> simp [e, bind, Res.bind] at h
    subst h; trivial
  | cons f fs =>
    unfold Stk.item at h
    simp only [List.all_cons, Bool.and_eq_true] at hs
    cases e : f.add ev v <;> simp [e, bind, Res.bind] at h
    subst h
    simp [Stk.Sound, soundSt, soundAll, add_sound e, hs.2, hp]

theorem item_total {ev : Val → Res Val} (he : ∀ v, ∃ w, ev v = .ok w) {fs : List Frame} {pre : Option Pre}
    (hs : fs.all (Frame.sound false) = true) (hp : pre ≠ some .tilde) (v : Val) : ∃ k, Stk.item ev fs pre v = .ok k := by
  cases fs with
  | nil =>
    obtain ⟨w, e⟩ := he v
    rcases pre with _ | _ | _ | _ <;> simp_all [Stk.item, applyPre]
  | cons f fs =>
    simp only [List.all_cons, Bool.and_eq_true] at hs
    obtain ⟨f', e⟩ := add_total he hs.1 v
    exact ⟨_, by simp [Stk.item, e]; rfl⟩

theorem wants_all {fs : List Frame} (hs : soundAll fs = true) (w : wants fs = true) : fs.all (Frame.sound false) = true := by
  cases fs with
  | nil => rfl
  | cons f fs =>
    simp only [soundAll, Bool.and_eq_true] at hs
    simp [sound_wants hs.1 w, hs.2]

theorem prefixed_sound {fs : List Frame} {pre : Option Pre} {p : Pre} {k : Stk} (hs : soundSt fs pre = true) (hp : p ≠ .tilde)
    (h : Stk.prefixed fs pre p = some k) : k.Sound := by
  simp only [soundSt, Bool.and_eq_true, decide_eq_true_eq] at hs
  cases fs with
  | nil =>
    simp only [Stk.prefixed] at h
    split at h <;> simp at h
    subst h
    simp [Stk.Sound, soundSt, soundAll, hp]
  | cons f fs =>
    simp only [Stk.prefixed] at h
    split at h <;> simp at h
    next c =>
    subst h
    have a := wants_all hs.1 (by simp at c; exact c.2)
    simp only [List.all_cons, Bool.and_eq_true] at a
    obtain ⟨i, d, q⟩ := f
    cases i <;> rcases d with _ | _ | _ <;> cases p <;> simp_all [Stk.Sound, soundSt, soundAll, Frame.sound, wants]

/-- A token that fits keeps the stack sound; with an evaluator that gives values, it gives a stack. -/
theorem shift_sound {ev : Val → Res Val} {k : Stk} {t : Token} {r : Res Stk} (hs : k.Sound) (h : k.shift ev t = some r) :
    (∀ k', r = .ok k' → k'.Sound) ∧ ((∀ v, ∃ w, ev v = .ok w) → ∃ k', r = .ok k') := by
  cases k with
  | full v => simp [Stk.shift] at h
  | part fs pre =>
    have hs' := hs
    simp only [Stk.Sound, soundSt, Bool.and_eq_true, decide_eq_true_eq] at hs
    rcases atom_cases t with rfl | rfl | rfl | rfl | rfl | rfl | ⟨v, a⟩
    · simp only [Stk.shift] at h
      split at h <;> simp at h
      next w =>
      subst h
      refine ⟨fun k' e => ?_, fun _ => ⟨_, rfl⟩⟩
      cases e
      simp [Stk.Sound, soundSt, soundAll, Frame.sound, wants_all hs.1 w, hs.2]
    · cases fs with
      | nil => simp [Stk.shift] at h
      | cons f fs =>
        simp only [Stk.shift] at h
        simp only [soundAll, Bool.and_eq_true] at hs
        split at h <;> simp at h
        subst h
        exact ⟨fun k' e => item_sound hs.1.2 hs.2 e, fun he => item_total he hs.1.2 hs.2 _⟩
    · simp only [Stk.shift] at h
      split at h <;> simp at h
      subst h
      refine ⟨fun k' e => ?_, fun _ => ⟨_, rfl⟩⟩
      cases e
      simpa [Stk.Sound, soundSt, soundAll, Frame.sound] using hs
    · simp only [Stk.shift, Option.map_eq_some_iff] at h
      obtain ⟨k', e, rfl⟩ := h
      exact ⟨fun _ e' => by cases e'; exact prefixed_sound hs' (by simp) e, fun _ => ⟨_, rfl⟩⟩
    · simp only [Stk.shift, Option.map_eq_some_iff] at h
      obtain ⟨k', e, rfl⟩ := h
      exact ⟨fun _ e' => by cases e'; exact prefixed_sound hs' (by simp) e, fun _ => ⟨_, rfl⟩⟩
    · simp only [Stk.shift] at h
      split at h <;> simp at h
      subst h
      refine ⟨fun k' e => ?_, fun _ => ⟨_, rfl⟩⟩
      cases e
      simpa [Stk.Sound, soundSt, soundAll, Frame.sound] using hs
    · rw [shift_atom ev fs pre a] at h
      split at h <;> simp at h
      next w =>
      subst h
      exact ⟨fun k' e => item_sound (wants_all hs.1 w) hs.2 e, fun he => item_total he (wants_all hs.1 w) hs.2 _⟩

theorem eat_sound {ev : Val → Res Val} {s s' : Rd} {t : Token} (hs : s.stk.Sound) (h : s.eat ev t = .ok s') :
    s'.stk.Sound ∧ s'.depth = s.depth ∧ s'.vals = s.vals := by
  unfold Rd.eat at h
  split at h
  · cases h; exact ⟨hs, rfl, rfl⟩
  · next r e =>
    cases r <;> simp [bind, Res.bind] at h
    subst h
    exact ⟨(shift_sound hs e).1 _ rfl, rfl, rfl⟩

theorem eat_total {ev : Val → Res Val} (he : ∀ v, ∃ w, ev v = .ok w) {s : Rd} (t : Token) (hs : s.stk.Sound) : ∃ s', s.eat ev t = .ok s' := by
  unfold Rd.eat
  split
  · exact ⟨_, rfl⟩
  · next r e =>
    obtain ⟨k, rfl⟩ := (shift_sound hs e).2 he
    exact ⟨_, rfl⟩

theorem consume_sound {s : Rd} (hs : s.stk.Sound) : s.consume.stk.Sound := by
  unfold Rd.consume
  split
  · split <;> (simp only [Stk.start, Stk.Sound]; decide)
  · exact hs

theorem step_sound {ev : Val → Res Val} {s s' : Rd} {t : Token} (hs : s.stk.Sound) (h : s.step ev t = .ok (some s')) : s'.stk.Sound := by
  rcases atom_cases t with rfl | rfl | rfl | rfl | rfl | rfl | ⟨v, a⟩
  all_goals first
    | rw [step_atom ev s a] at h
    | simp only [Rd.step] at h
  all_goals try split at h
  all_goals try (cases h; done)
  all_goals
    cases e : s.eat ev _ <;> rw [e] at h <;> simp [bind, Res.bind] at h
    subst h
    first
      | exact (eat_sound hs e).1
      | exact consume_sound (eat_sound hs e).1
      | exact consume_sound (s := ⟨_, _, _⟩) (eat_sound hs e).1

theorem step_total {ev : Val → Res Val} (he : ∀ v, ∃ w, ev v = .ok w) {s : Rd} (t : Token) (hs : s.stk.Sound) : ∃ r, s.step ev t = .ok r := by
  obtain ⟨s', e⟩ := eat_total he t hs
  rcases atom_cases t with rfl | rfl | rfl | rfl | rfl | rfl | ⟨v, a⟩
  all_goals first
    | rw [step_atom ev s a, e]
    | (simp only [Rd.step, e])
  all_goals try split
  all_goals exact ⟨_, rfl⟩

/-- **C76.** Reading does not get stuck: with an evaluator that gives values, any sequence of tokens is read. -/
theorem C76_total (ev : Val → Res Val) (he : ∀ v, ∃ w, ev v = .ok w) (ts : List Token) : ∃ r, Rd.run ev .init ts = .ok r := by
  suffices g : ∀ (s : Rd), s.stk.Sound → ∃ r, Rd.run ev s ts = .ok r from g _ (by simp only [Rd.init, Stk.start, Stk.Sound]; decide)
  induction ts with
  | nil => exact fun s _ => ⟨_, rfl⟩
  | cons t ts ih =>
    intro s hs
    obtain ⟨r, e⟩ := step_total he t hs
    cases r with
    | none => exact ⟨_, by simp [Rd.run, e]; rfl⟩
    | some s' =>
      obtain ⟨r, e'⟩ := ih s' (step_sound hs e)
      exact ⟨r, by simp [Rd.run, e, e']⟩

/-! ## Expressions do not disturb each other -/

/-- Values handed over before do not matter. -/
def Rd.after (a : List Val) (s : Rd) : Rd := ⟨s.depth, s.stk, a ++ s.vals⟩

theorem eat_after (ev : Val → Res Val) (a : List Val) (s : Rd) (t : Token) :
    (s.after a).eat ev t = (s.eat ev t >>= fun s' => .ok (s'.after a)) := by
  simp only [Rd.eat, Rd.after]
  split
  · rfl
  · next r _ => cases r <;> rfl

theorem consume_after (a : List Val) (s : Rd) : (s.after a).consume = s.consume.after a := by
  obtain ⟨d, k, v⟩ := s
  by_cases h : d = 0
  · cases k <;> simp [Rd.consume, Rd.after, h]
  · simp [Rd.consume, Rd.after, h]

theorem step_after (ev : Val → Res Val) (a : List Val) (s : Rd) (t : Token) :
    (s.after a).step ev t = (s.step ev t >>= fun r => .ok (r.map (Rd.after a))) := by
  rcases atom_cases t with rfl | rfl | rfl | rfl | rfl | rfl | ⟨v, h⟩
  case inr.inl =>
    simp only [Rd.step, eat_after]
    by_cases d : s.depth = 0
    · simp [Rd.after, d]
    · simp only [Rd.after, d, if_false]
      cases s.eat ev .pclose <;> simp [bind, Res.bind]
      exact consume_after a ⟨_, _, _⟩
  all_goals first
    | rw [step_atom ev _ h, step_atom ev _ h, eat_after]
    | simp only [Rd.step, eat_after]
  all_goals
    cases s.eat ev _ <;> simp [bind, Res.bind, Rd.after]
  exact consume_after a _

theorem run_after (ev : Val → Res Val) (a : List Val) (ts : List Token) : ∀ s : Rd,
    (s.after a).run ev ts = (s.run ev ts >>= fun r => .ok (r.1.after a, r.2)) := by
  induction ts with
  | nil => exact fun s => rfl
  | cons t ts ih =>
    intro s
    simp only [Rd.run, step_after]
    cases s.step ev t with
    | ok r =>
      cases r with
      | none => rfl
      | some s' => exact ih s'
    | _ => rfl

theorem run_append (ev : Val → Res Val) (us : List Token) (ts : List Token) : ∀ {s s' : Rd}, s.run ev ts = .ok (s', false) →
    s.run ev (ts ++ us) = s'.run ev us := by
  induction ts with
  | nil => intro s s' h; cases h; rfl
  | cons t ts ih =>
    intro s s' h
    simp only [Rd.run, List.cons_append] at h ⊢
    cases e : s.step ev t with
    | ok r =>
      rw [e] at h
      cases r with
      | none => simp at h
      | some s1 => exact ih h
    | _ => simp [e, bind, Res.bind] at h

/-- A token that ends an expression, with the parentheses balanced after it, leaves the empty stack. -/
theorem step_ends {ev : Val → Res Val} {s s' : Rd} {t : Token} (ht : t.ends = true) (h : s.step ev t = .ok (some s')) (d : s'.depth = 0) :
    s'.stk = .start := by
  have c : ∀ q : Rd, q.consume.depth = 0 → q.consume.stk = .start := by
    intro q hq
    unfold Rd.consume at hq ⊢
    split
    · split <;> rfl
    · next n => rw [if_neg n] at hq; exact absurd hq n
  rcases atom_cases t with rfl | rfl | rfl | rfl | rfl | rfl | ⟨v, a⟩
  all_goals try (cases ht; done)
  · simp only [Rd.step] at h
    split at h
    · cases h
    · cases e : s.eat ev .pclose <;> simp [e, bind, Res.bind] at h
      subst h
      exact c _ d
  · rw [step_atom ev s a] at h
    cases e : s.eat ev t <;> simp [e, bind, Res.bind] at h
    subst h
    exact c _ d

/-- **C76.** Wherever the parentheses are balanced after a closing parenthesis or an atom, what was read before, well-formed or not, has no influence on what follows: the rest is
read as at the start. -/
theorem C76_local (ev : Val → Res Val) (ts : List Token) (t : Token) (us : List Token) (s : Rd) (ht : t.ends = true)
    (h : Rd.run ev .init (ts ++ [t]) = .ok (s, false)) (hd : s.depth = 0) :
    Rd.run ev .init (ts ++ [t] ++ us) = (Rd.run ev .init us >>= fun r => .ok (⟨r.1.depth, r.1.stk, s.vals ++ r.1.vals⟩, r.2)) := by
  have k : s.stk = .start := by
    suffices g : ∀ (q : Rd), q.run ev (ts ++ [t]) = .ok (s, false) → s.stk = .start from g _ h
    clear h
    induction ts with
    | nil =>
      intro q h
      simp only [List.nil_append, Rd.run] at h
      cases e : q.step ev t with
      | ok r =>
        rw [e] at h
        cases r with
        | none => simp at h
        | some s1 =>
          simp at h
          subst h
          exact step_ends ht e hd
      | _ => simp [e, bind, Res.bind] at h
    | cons u ts ih =>
      intro q h
      simp only [List.cons_append, Rd.run] at h
      cases e : q.step ev u with
      | ok r =>
        rw [e] at h
        cases r with
        | none => simp at h
        | some s1 => exact ih s1 h
      | _ => simp [e, bind, Res.bind] at h
  rw [run_append ev us _ h]
  have : s = Rd.init.after s.vals := by
    obtain ⟨d, k', v⟩ := s
    simp only at hd k
    subst hd k
    simp [Rd.init, Rd.after]
  rw [this, run_after]
  simp [Rd.init, Rd.after]

/-! ## Well-formed text is read as before -/

theorem add_was {ev : Val → Res Val} {f f' : Frame} {v : Val} (h : f.add ev v = .ok f') : f.sound false = true := by
  obtain ⟨i, d, p⟩ := f
  cases i <;> rcases d with _ | _ | _ <;> rcases p with _ | _ | _ | _ <;> simp_all [Frame.sound, Frame.add, applyPre, bind, Res.bind]

theorem close_was {f : Frame} {v : Val} (h : f.close = .ok v) : f.sound true = true := by
  obtain ⟨i, d, p⟩ := f
  cases i <;> rcases d with _ | _ | _ <;> rcases p with _ | _ | _ | _ <;> simp_all [Frame.sound, Frame.close]

theorem all_wants {fs : List Frame} (h : fs.all (Frame.sound false) = true) : wants fs = true := by
  cases fs with
  | nil => rfl
  | cons f fs =>
    simp only [List.all_cons, Bool.and_eq_true] at h
    obtain ⟨i, d, p⟩ := f
    cases i <;> rcases d with _ | _ | _ <;> rcases p with _ | _ | _ | _ <;> simp_all [Frame.sound, wants]

theorem complete_was {ev : Val → Res Val} {fs : List Frame} {pre : Option Pre} {vs : List Val} {v : Val} {st' : PSt}
    (h : complete ev ⟨fs, pre, vs⟩ v = .ok st') (g : soundSt st'.frames st'.pre = true) :
    fs.all (Frame.sound false) = true ∧ pre ≠ some .tilde ∧
      ∃ k, Stk.item ev fs pre v = .ok k ∧ Rd.consume ⟨fs.length, k, vs⟩ = ⟨st'.frames.length, .part st'.frames st'.pre, st'.vals⟩ := by
  cases fs with
  | nil =>
    simp only [complete] at h
    cases e : applyPre ev pre v <;> simp [e, bind, Res.bind] at h
    subst h
    refine ⟨rfl, ?_, .full _, by simp [Stk.item, e], rfl⟩
    rintro rfl
    simp [applyPre] at e
  | cons f fs =>
    simp only [complete] at h
    cases e : f.add ev v <;> simp [e, bind, Res.bind] at h
    next f' =>
    subst h
    simp only [soundSt, soundAll, Bool.and_eq_true, decide_eq_true_eq] at g
    exact ⟨by simp [add_was e, g.1.2], g.2, .part (f' :: fs) pre, by simp [Stk.item, e], by simp [Rd.consume]⟩

theorem setPre_was {st st' : PSt} {p : Pre} (hp : p ≠ .tilde) (h : setPre st p = .ok st') (g : soundSt st'.frames st'.pre = true) :
    soundSt st.frames st.pre = true ∧ Stk.prefixed st.frames st.pre p = some (.part st'.frames st'.pre) ∧ st'.frames.length = st.frames.length ∧
      st'.vals = st.vals := by
  obtain ⟨fs, pre, vs⟩ := st
  cases fs with
  | nil =>
    simp only [setPre] at h
    split at h <;> simp at h
    next c =>
    subst h
    simp at c
    simp [soundSt, soundAll, Stk.prefixed, c]
  | cons f fs =>
    simp only [setPre] at h
    split at h <;> simp at h
    next c =>
    subst h
    obtain ⟨i, d, q⟩ := f
    simp at c
    subst c
    cases i <;> rcases d with _ | _ | _ <;> cases p <;>
      simp_all [soundSt, soundAll, Frame.sound, Stk.prefixed, wants]

theorem tilde_was {st st' : PSt} (h : setPre st .tilde = .ok st') (g : soundSt st'.frames st'.pre = true) :
    ∃ l fs, st.frames = ⟨some l, none, none⟩ :: fs ∧ st' = ⟨⟨some l, none, some .tilde⟩ :: fs, st.pre, st.vals⟩ ∧ soundSt st.frames st.pre = true := by
  obtain ⟨fs, pre, vs⟩ := st
  cases fs with
  | nil =>
    simp only [setPre] at h
    split at h <;> simp at h
    subst h
    simp [soundSt] at g
  | cons f fs =>
    simp only [setPre] at h
    split at h <;> simp at h
    next c =>
    subst h
    obtain ⟨i, d, q⟩ := f
    simp at c
    subst c
    cases i <;> rcases d with _ | _ | _ <;> simp_all [soundSt, soundAll, Frame.sound]

/-- A step of the parser of `Parse.lean` that leads to a sound state is the step here. -/
theorem feed_step {ev : Val → Res Val} {st st' : PSt} {t : Token} (h : feed ev st t = .ok st') (g : soundSt st'.frames st'.pre = true) :
    soundSt st.frames st.pre = true ∧
      Rd.step ev ⟨st.frames.length, .part st.frames st.pre, st.vals⟩ t = .ok (some ⟨st'.frames.length, .part st'.frames st'.pre, st'.vals⟩) := by
  obtain ⟨fs, pre, vs⟩ := st
  rcases atom_cases t with rfl | rfl | rfl | rfl | rfl | rfl | ⟨v, a⟩
  · cases h
    simp only [soundSt, soundAll, Bool.and_eq_true, decide_eq_true_eq] at g
    refine ⟨by simp [soundSt, sound_tail g.1.2, g.2], ?_⟩
    simp [Rd.step, Rd.eat, Stk.shift, all_wants g.1.2]
  · cases fs with
    | nil => simp [feed] at h
    | cons f fs =>
      simp only [feed] at h
      cases e : f.close <;> simp [e, bind, Res.bind] at h
      obtain ⟨w, p, k, i, c⟩ := complete_was h g
      refine ⟨by simp [soundSt, soundAll, close_was e, w, p], ?_⟩
      simp [Rd.step, Rd.eat, Stk.shift, e, i, c]
  · simp only [feed] at h
    split at h <;> simp at h
    subst h
    refine ⟨by simpa [soundSt, soundAll, Frame.sound] using g, ?_⟩
    simp [Rd.step, Rd.eat, Stk.shift]
  · obtain ⟨a, b, c, d⟩ := setPre_was (by simp) h g
    exact ⟨a, by simp [Rd.step, Rd.eat, Stk.shift, b, c, d]⟩
  · obtain ⟨a, b, c, d⟩ := setPre_was (by simp) h g
    exact ⟨a, by simp [Rd.step, Rd.eat, Stk.shift, b, c, d]⟩
  · obtain ⟨l, fs', a, b, c⟩ := tilde_was h g
    simp only at a
    subst a b
    exact ⟨c, by simp [Rd.step, Rd.eat, Stk.shift]⟩
  · rw [feed_atom ev _ a] at h
    obtain ⟨w, p, k, i, c⟩ := complete_was h g
    refine ⟨by simp [soundSt, sound_tail w, p], ?_⟩
    rw [step_atom ev _ a]
    simp [Rd.eat, shift_atom ev _ _ a, all_wants w, i, c]

/-- **C76.** What the parser without error recovery reads, the parser reads with the same values. -/
theorem C76_wellformed (ev : Val → Res Val) (ts : List Token) (st : PSt) (h : feedAll ev .init ts = .ok st) (hf : st.frames = []) (hp : st.pre = none) :
    Rd.run ev .init ts = .ok (⟨0, .start, st.vals⟩, false) := by
  suffices g : ∀ (q : PSt), feedAll ev q ts = .ok st →
      soundSt q.frames q.pre = true ∧
        Rd.run ev ⟨q.frames.length, .part q.frames q.pre, q.vals⟩ ts = .ok (⟨0, .start, st.vals⟩, false) from (g _ h).2
  clear h
  induction ts with
  | nil =>
    intro q h
    cases h
    simp [hf, hp, soundSt, soundAll, Rd.run, Stk.start]
  | cons t ts ih =>
    intro q h
    simp only [feedAll] at h
    cases e : feed ev q t with
    | ok q' =>
      rw [e] at h
      obtain ⟨a, b⟩ := ih q' h
      obtain ⟨c, d⟩ := feed_step e a
      exact ⟨c, by simp [Rd.run, d, b]⟩
    | _ => simp [e, bind, Res.bind] at h

/-! ## How many values -/

theorem consume_vals (s : Rd) : s.consume.depth = s.depth ∧ s.consume.vals.length ≤ s.vals.length + (if s.depth = 0 then 1 else 0) := by
  obtain ⟨d, k, v⟩ := s
  by_cases h : d = 0
  · cases k <;> simp [Rd.consume, h]
  · simp [Rd.consume, h]

theorem eat_same {ev : Val → Res Val} {s s' : Rd} {t : Token} (h : s.eat ev t = .ok s') : s'.depth = s.depth ∧ s'.vals = s.vals := by
  unfold Rd.eat at h
  split at h
  · cases h; exact ⟨rfl, rfl⟩
  · next r e =>
    cases r <;> simp [bind, Res.bind] at h
    subst h
    exact ⟨rfl, rfl⟩

/-- One token: the depth, and at most one value where the parentheses are balanced. -/
theorem step_count {ev : Val → Res Val} {s s' : Rd} {t : Token} (h : s.step ev t = .ok (some s')) (ts : List Token) :
    s'.vals.length + blocks s'.depth ts ≤ s.vals.length + blocks s.depth (t :: ts) := by
  obtain ⟨d, k, v⟩ := s
  rcases atom_cases t with rfl | rfl | rfl | rfl | rfl | rfl | ⟨x, a⟩
  case inr.inl =>
    simp only [Rd.step] at h
    split at h
    · cases h
    · next n =>
      cases e : Rd.eat ev ⟨d, k, v⟩ .pclose <;> rw [e] at h <;> simp [bind, Res.bind] at h
      subst h
      obtain ⟨e1, e2⟩ := eat_same e
      have c := consume_vals ⟨d - 1, (by assumption : Rd).stk, v⟩
      simp only at e1 e2
      rw [e1, e2, c.1]
      simp only at c n
      match d, n with
      | 1, _ => simp [blocks] at c ⊢; omega
      | d + 2, _ => simp [blocks] at c ⊢; omega
  case inr.inr.inr.inr.inr.inr =>
    rw [step_atom ev _ a] at h
    cases e : Rd.eat ev ⟨d, k, v⟩ t <;> simp [e, bind, Res.bind] at h
    next q =>
    subst h
    obtain ⟨e1, e2⟩ := eat_same e
    obtain ⟨c1, c2⟩ := consume_vals q
    rw [c1, e1]
    rw [e1, e2] at c2
    simp only at c2 ⊢
    cases d with
    | zero => cases t <;> simp [Token.atom] at a <;> simp [blocks, Token.ends] at c2 ⊢ <;> omega
    | succ d => cases t <;> simp [Token.atom] at a <;> simp [blocks] at c2 ⊢ <;> omega
  all_goals
    simp only [Rd.step] at h
    cases e : Rd.eat ev ⟨d, k, v⟩ _ <;> rw [e] at h <;> simp [bind, Res.bind] at h
    subst h
    obtain ⟨e1, e2⟩ := eat_same e
    simp only at e1 e2
    rw [e1, e2]
    cases d <;> simp [blocks, Token.ends]

/-- **C76.** At most one value is handed over for each place at which the parentheses are balanced. -/
theorem C76_count (ev : Val → Res Val) (ts : List Token) (s : Rd) (b : Bool) (h : Rd.run ev .init ts = .ok (s, b)) :
    s.vals.length ≤ blocks 0 ts := by
  suffices g : ∀ q : Rd, q.run ev ts = .ok (s, b) → s.vals.length ≤ q.vals.length + blocks q.depth ts by
    simpa [Rd.init] using g _ h
  clear h
  induction ts with
  | nil => intro q h; cases h; simp [blocks]
  | cons t ts ih =>
    intro q h
    simp only [Rd.run] at h
    cases e : q.step ev t with
    | ok r =>
      rw [e] at h
      cases r with
      | none => simp at h; rw [h.1]; omega
      | some s1 =>
        have a := ih s1 h
        have b := step_count e ts
        omega
    | _ => simp [e, bind, Res.bind] at h

/-! ## What the values are -/

/-- The state of the parser of `Parse.lean` for a stack. -/
def Stk.pst (vs : List Val) : Stk → PSt
  | .part fs pre => ⟨fs, pre, vs⟩
  | .full v => ⟨[], none, vs ++ [v]⟩

theorem item_feed {ev : Val → Res Val} {fs : List Frame} {pre : Option Pre} {v : Val} {k : Stk} (vs : List Val) (h : Stk.item ev fs pre v = .ok k) :
    complete ev ⟨fs, pre, vs⟩ v = .ok (k.pst vs) := by
  cases fs with
  | nil =>
    simp only [Stk.item] at h
    cases e : applyPre ev pre v <;> simp [e, bind, Res.bind] at h
    subst h
    simp [complete, e, Stk.pst]
  | cons f fs =>
    simp only [Stk.item] at h
    cases e : f.add ev v <;> simp [e, bind, Res.bind] at h
    subst h
    simp [complete, e, Stk.pst]

theorem prefixed_feed {fs : List Frame} {pre : Option Pre} {p : Pre} {k : Stk} (vs : List Val) (h : Stk.prefixed fs pre p = some k) :
    setPre ⟨fs, pre, vs⟩ p = .ok (k.pst vs) := by
  cases fs with
  | nil =>
    simp only [Stk.prefixed] at h
    split at h <;> simp at h
    next c => subst h; simp [setPre, c, Stk.pst]
  | cons f fs =>
    simp only [Stk.prefixed] at h
    split at h <;> simp at h
    next c =>
    subst h
    simp only [Bool.and_eq_true] at c
    simp [setPre, c.1, Stk.pst]

/-- A token that fits is a step of the grammar. -/
theorem shift_feed {ev : Val → Res Val} {k k' : Stk} {t : Token} (vs : List Val) (h : k.shift ev t = some (.ok k')) :
    feed ev (k.pst vs) t = .ok (k'.pst vs) := by
  cases k with
  | full v => simp [Stk.shift] at h
  | part fs pre =>
    rcases atom_cases t with rfl | rfl | rfl | rfl | rfl | rfl | ⟨v, a⟩
    · simp only [Stk.shift] at h
      split at h <;> simp at h
      subst h; rfl
    · cases fs with
      | nil => simp [Stk.shift] at h
      | cons f fs =>
        simp only [Stk.shift] at h
        split at h <;> simp at h
        next x e =>
        simp [Stk.pst, feed, e, item_feed vs h]
    · simp only [Stk.shift] at h
      split at h <;> simp at h
      subst h; rfl
    · simp only [Stk.shift, Option.map_eq_some_iff, Res.ok.injEq] at h
      obtain ⟨q, e, rfl⟩ := h
      exact prefixed_feed vs e
    · simp only [Stk.shift, Option.map_eq_some_iff, Res.ok.injEq] at h
      obtain ⟨q, e, rfl⟩ := h
      exact prefixed_feed vs e
    · simp only [Stk.shift] at h
      split at h <;> simp at h
      subst h; rfl
    · rw [shift_atom ev fs pre a] at h
      split at h <;> simp at h
      exact (feed_atom ev _ a).trans (item_feed vs h)

/-- The tokens `ts` are read, up to tokens left out, as complete expressions and a beginning. -/
def Rd.Kept (ev : Val → Res Val) (ts : List Token) (s : Rd) : Prop :=
  ∃ us cs, (us ++ cs).Sublist ts ∧ feedAll ev .init us = .ok ⟨[], none, s.vals⟩ ∧ feedAll ev ⟨[], none, s.vals⟩ cs = .ok (s.stk.pst s.vals)

theorem eat_kept {ev : Val → Res Val} {ts : List Token} {s s' : Rd} {t : Token} (k : Rd.Kept ev ts s) (h : s.eat ev t = .ok s') :
    Rd.Kept ev (ts ++ [t]) s' := by
  obtain ⟨us, cs, l, a, b⟩ := k
  unfold Rd.eat at h
  split at h
  · cases h
    exact ⟨us, cs, l.trans (List.sublist_append_left _ _), a, b⟩
  · next r e =>
    cases r <;> simp [bind, Res.bind] at h
    subst h
    refine ⟨us, cs ++ [t], ?_, a, ?_⟩
    · rw [← List.append_assoc]
      exact l.append (List.Sublist.refl _)
    · rw [feedAll_append, b, Res.ok_bind]
      simp [feedAll, shift_feed s.vals e]

theorem depth_kept {ev : Val → Res Val} {ts : List Token} {s : Rd} {d : Nat} (k : Rd.Kept ev ts s) : Rd.Kept ev ts ⟨d, s.stk, s.vals⟩ := k

theorem consume_kept {ev : Val → Res Val} {ts : List Token} {s : Rd} (k : Rd.Kept ev ts s) : Rd.Kept ev ts s.consume := by
  unfold Rd.consume
  split
  · obtain ⟨us, cs, l, a, b⟩ := k
    split
    · next v e =>
      rw [e] at b
      exact ⟨us ++ cs, [], by simpa using l, by rw [feedAll_append, a]; exact b, rfl⟩
    · exact ⟨us, [], by simpa using (List.sublist_append_left us cs).trans l, a, rfl⟩
  · exact k

theorem step_kept {ev : Val → Res Val} {ts : List Token} {s s' : Rd} {t : Token} (k : Rd.Kept ev ts s) (h : s.step ev t = .ok (some s')) :
    Rd.Kept ev (ts ++ [t]) s' := by
  rcases atom_cases t with rfl | rfl | rfl | rfl | rfl | rfl | ⟨v, a⟩
  all_goals first
    | rw [step_atom ev s a] at h
    | simp only [Rd.step] at h
  all_goals try split at h
  all_goals try (cases h; done)
  all_goals
    cases e : s.eat ev _ <;> rw [e] at h <;> simp [bind, Res.bind] at h
    subst h
    first
      | exact eat_kept k e
      | exact depth_kept (eat_kept k e)
      | exact consume_kept (eat_kept k e)
      | exact consume_kept (s := ⟨_, _, _⟩) (depth_kept (eat_kept k e))

/-- **C76.** Whatever the text, the values handed over are those of a well-formed text, made of the given one by leaving out tokens. -/
theorem C76_values (ev : Val → Res Val) (ts : List Token) (s : Rd) (b : Bool) (h : Rd.run ev .init ts = .ok (s, b)) :
    ∃ us, us.Sublist ts ∧ feedAll ev .init us = .ok ⟨[], none, s.vals⟩ := by
  suffices g : ∀ (ps : List Token) (q : Rd), Rd.Kept ev ps q → q.run ev ts = .ok (s, b) →
      ∃ us, us.Sublist (ps ++ ts) ∧ feedAll ev .init us = .ok ⟨[], none, s.vals⟩ from
    g [] .init ⟨[], [], List.Sublist.refl _, rfl, rfl⟩ h
  clear h
  induction ts with
  | nil =>
    rintro ps q ⟨us, cs, l, a, -⟩ h
    cases h
    exact ⟨us, by simpa using (List.sublist_append_left us cs).trans l, a⟩
  | cons t ts ih =>
    intro ps q k h
    simp only [Rd.run] at h
    cases e : q.step ev t with
    | ok r =>
      rw [e] at h
      cases r with
      | none =>
        obtain ⟨us, cs, l, a, -⟩ := k
        simp at h
        rw [← h.1]
        exact ⟨us, ((List.sublist_append_left us cs).trans l).trans (List.sublist_append_left _ _), a⟩
      | some s1 =>
        obtain ⟨us, l, a⟩ := ih (ps ++ [t]) s1 (step_kept k e) h
        exact ⟨us, by simpa using l, a⟩
    | _ => simp [e, bind, Res.bind] at h

/-! ## Examples -/

/-- The values of a text, with its malformed parts; the evaluator is not used. -/
def Rd.text (cs : List Char) : Res (List Val × Bool) :=
  Rd.run .ok .init (lex (ascii cs)).1 >>= fun r => .ok (r.1.vals, r.2)

/-- The hypotheses of `C76_local` hold for `(a . b c)`, followed by anything. -/
example : ∃ s, Rd.run .ok .init ((lex (ascii "(a . b c".toList)).1 ++ [.pclose]) = .ok (s, false) ∧ s.depth = 0 ∧ Token.pclose.ends = true ∧
    s.vals.length = 1 :=
  ⟨_, rfl, by decide +kernel⟩

/-- The hypotheses of `C76_wellformed` hold for `(a . 'b) 1`. -/
example : ∃ st, feedAll .ok .init (lex (ascii "(a . 'b) 1".toList)).1 = .ok st ∧ st.frames = [] ∧ st.pre = none ∧ st.vals.length = 2 :=
  ⟨_, rfl, by decide +kernel⟩

/-- The hypothesis of `C76_total`. -/
example : ∀ v, ∃ w, (Res.ok v : Res Val) = .ok w := fun v => ⟨v, rfl⟩

/-- The hypothesis of `C76_values` and `C76_count` holds for a text with a parenthesis too much. -/
example : ∃ s, Rd.run .ok .init (lex (ascii "(a . b c) ) d".toList)).1 = .ok (s, true) ∧ s.vals.length = 1 := ⟨_, rfl, rfl⟩

/-- The bound of `C76_count` is reached, and is not reached by a list that is dropped. -/
example : blocks 0 (lex (ascii "(a) b (c . )".toList)).1 = 3 ∧ Rd.text "(a) b (c . )".toList = Rd.text "(a) b".toList ∧
    blocks 0 (lex (ascii "(a) b".toList)).1 = 2 ∧ (∃ l, Rd.text "(a) b".toList = .ok (l, false) ∧ l.length = 2) :=
  ⟨by decide +kernel, by decide +kernel, by decide +kernel, _, rfl, rfl⟩

/-- **C76.** A malformed expression is not rejected as a whole: `(a . b c)` gives the pair `(a . b)`, `(. a)` the list `(a)`, and in `(x (a . b (c) d) y)` the
parenthesis that closes `c` closes the inner list, so that `d` lands in the outer one and `y` is lost. -/
theorem C76_counterexample :
    Rd.text "(a . b c)".toList = Rd.text "(a . b)".toList ∧
    Rd.text "(. a)".toList = Rd.text "(a)".toList ∧
    Rd.text "(x (a . b (c) d) y)".toList = Rd.text "(x (a . b) d)".toList ∧
    Rd.text "(x (a . b) d)".toList ≠ Rd.text "(x (a . b) y)".toList := by
  decide +kernel

end Lex
end Mnml
