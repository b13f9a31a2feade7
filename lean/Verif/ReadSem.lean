import Verif.Read
import Verif.PropRead

/-!
# Reading a file value by value
-/

namespace Mnml
namespace Lex

open Val

/-! ## Lines -/

theorem takeLine_line {u l : List UInt8} {n : Nat} (hu : ∀ x ∈ u, x ≠ 10) (hn : u.length < n) :
    takeLine n (u ++ 10 :: l) = (u ++ [10], l) := by
  induction u generalizing n with
  | nil =>
    cases n with
    | zero => simp at hn
    | succ n => simp [takeLine]
  | cons b u ih =>
    cases n with
    | zero => simp at hn
    | succ n =>
      have hb : b ≠ 10 := hu b (by simp)
      have := ih (n := n) (fun x hx => hu x (by simp [hx])) (by simpa using hn)
      simp [takeLine, hb, this]

theorem takeLine_full {u l : List UInt8} (hu : ∀ x ∈ u, x ≠ 10) : takeLine u.length (u ++ l) = (u, l) := by
  induction u with
  | nil => rfl
  | cons b u ih =>
    have hb : b ≠ 10 := hu b (by simp)
    have := ih fun x hx => hu x (by simp [hx])
    simp [takeLine, hb, this]

theorem takeLine_last {u : List UInt8} {n : Nat} (hu : ∀ x ∈ u, x ≠ 10) (hn : u.length ≤ n) :
    takeLine n u = (u, []) := by
  induction u generalizing n with
  | nil => cases n <;> rfl
  | cons b u ih =>
    cases n with
    | zero => simp at hn
    | succ n =>
      have hb : b ≠ 10 := hu b (by simp)
      have := ih (n := n) (fun x hx => hu x (by simp [hx])) (by simpa using hn)
      simp [takeLine, hb, this]

/-- The text of a line or of a part of one. -/
def OneLine (u : List UInt8) : Prop := ∀ x ∈ u, x ≠ 10 ∧ x ≠ 0

/-- A file and the words of the pieces in which `fgets` delivers it: lines of at most 1023 bytes with their newline, pieces of exactly
1023 bytes of longer lines, and a last line without newline. -/
inductive Pieces : List (List (List UInt8 × Rule)) → List UInt8 → Prop where
  | nil : Pieces [] []
  | last {ws : List (List UInt8 × Rule)} {u : List UInt8} (h : Layout ws u) (h0 : u ≠ []) (h1 : OneLine u)
      (h2 : u.length ≤ 1023) : Pieces [ws] u
  | line {ws : List (List UInt8 × Rule)} {wss : List (List (List UInt8 × Rule))} {u t : List UInt8} (h : Layout ws u)
      (h1 : OneLine u) (h2 : u.length ≤ 1022) (ht : Pieces wss t) : Pieces (ws :: wss) (u ++ 10 :: t)
  | full {ws : List (List UInt8 × Rule)} {wss : List (List (List UInt8 × Rule))} {u t : List UInt8} (h : Layout ws u)
      (h1 : OneLine u) (h2 : u.length = 1023) (ht : Pieces wss t) : Pieces (ws :: wss) (u ++ t)

theorem takeWhile_all {u : List UInt8} (h : ∀ x ∈ u, x ≠ 0) : u.takeWhile (· ≠ 0) = u := by
  induction u with
  | nil => rfl
  | cons b u ih =>
    have hb : b ≠ 0 := h b (by simp)
    rw [List.takeWhile_cons_of_pos (by simpa using hb), ih fun x hx => h x (by simp [hx])]

theorem Layout.newline {ws : List (List UInt8 × Rule)} {t : List UInt8} (h : Layout ws t) : Layout ws (t ++ [10]) := by
  have := h.join .nil
  simpa using this

theorem fgets_rbuf {l : List UInt8} (h : l ≠ []) : Lex.fgets rbufLen l = some (takeLine 1023 l) := by
  cases l with
  | nil => exact absurd rfl h
  | cons b l => simp [Lex.fgets, rbufLen]

/-- The next piece. -/
theorem Pieces.fgets {wss : List (List (List UInt8 × Rule))} {t : List UInt8} (h : Pieces wss t) :
    (wss = [] ∧ t = [] ∧ Lex.fgets rbufLen t = none) ∨
    ∃ ws wss' chunk t', wss = ws :: wss' ∧ Lex.fgets rbufLen t = some (chunk, t') ∧ chunk.takeWhile (· ≠ 0) = chunk ∧
      Layout ws chunk ∧ Pieces wss' t' := by
  cases h with
  | nil => exact .inl ⟨rfl, rfl, rfl⟩
  | last h h0 h1 h2 =>
    refine .inr ⟨_, _, t, [], rfl, ?_, takeWhile_all fun x hx => (h1 x hx).2, h, .nil⟩
    rw [fgets_rbuf h0, takeLine_last (fun x hx => (h1 x hx).1) (by omega)]
  | @line ws wss' u t' h h1 h2 ht =>
    refine .inr ⟨_, _, u ++ [10], t', rfl, ?_, takeWhile_all ?_, h.newline, ht⟩
    · rw [fgets_rbuf (by simp), takeLine_line (fun x hx => (h1 x hx).1) (by omega)]
    · intro x hx
      rcases List.mem_append.1 hx with hx | hx
      · exact (h1 x hx).2
      · rw [List.mem_singleton.1 hx]; decide
  | @full ws wss' u t' h h1 h2 ht =>
    refine .inr ⟨_, _, u, t', rfl, ?_, takeWhile_all fun x hx => (h1 x hx).2, h, ht⟩
    have hu : u ≠ [] := by rintro rfl; simp at h2
    have hl := takeLine_full (l := t') fun x hx => (h1 x hx).1
    rw [h2] at hl
    rw [fgets_rbuf (by simp [hu]), hl]

/-! ## The parser -/

/-- The same state after other values. -/
def PSt.after (a : List Val) (st : PSt) : PSt := ⟨st.frames, st.pre, a ++ st.vals⟩

/-- The same outcome after other values. -/
def shift (a : List Val) (r : Res PSt) : Res PSt := r >>= fun st => .ok (st.after a)

theorem complete_after (ev : Val → Res Val) (a : List Val) (st : PSt) (v : Val) :
    complete ev (st.after a) v = shift a (complete ev st v) := by
  obtain ⟨fs, p, vs⟩ := st
  cases fs with
  | nil =>
    simp only [complete, PSt.after, shift]
    cases applyPre ev p v <;> simp
  | cons f fs =>
    simp only [complete, PSt.after, shift]
    cases f.add ev v <;> rfl

theorem feed_after (ev : Val → Res Val) (a : List Val) (st : PSt) (t : Token) :
    feed ev (st.after a) t = shift a (feed ev st t) := by
  obtain ⟨fs, p, vs⟩ := st
  have pre : ∀ q, setPre (PSt.after a ⟨fs, p, vs⟩) q = shift a (setPre ⟨fs, p, vs⟩ q) := by
    intro q
    cases fs with
    | nil => cases p <;> rfl
    | cons f fs => obtain ⟨i, d, g⟩ := f; cases g <;> rfl
  cases t with
  | popen => rfl
  | pclose =>
    cases fs with
    | nil => rfl
    | cons f fs =>
      simp only [feed, PSt.after]
      cases f.close with
      | ok v => exact complete_after ev a ⟨fs, p, vs⟩ v
      | _ => rfl
  | dot =>
    simp only [feed, PSt.after]
    split <;> rfl
  | quote => exact pre _
  | backt => exact pre _
  | tilde => exact pre _
  | num n => exact complete_after ev a _ _
  | chr n => exact complete_after ev a _ _
  | str n => exact complete_after ev a _ _
  | nil => exact complete_after ev a _ _
  | tru => exact complete_after ev a _ _
  | wild => exact complete_after ev a _ _
  | sym s => exact complete_after ev a _ _

theorem feedAll_after (ev : Val → Res Val) (a : List Val) (st : PSt) (ts : List Token) :
    feedAll ev (st.after a) ts = shift a (feedAll ev st ts) := by
  induction ts generalizing st with
  | nil => rfl
  | cons t ts ih =>
    simp only [feedAll, feed_after, shift]
    cases feed ev st t with
    | ok st' => simpa [shift] using ih st'
    | _ => rfl

/-- The tokens that do not announce another one. -/
def Token.final : Token → Bool
  | .quote => false
  | .backt => false
  | .tilde => false
  | _ => true

theorem feed_final {ev : Val → Res Val} {st st' : PSt} {t : Token} (h : feed ev st t = .ok st') (ht : t.final = true)
    (hf : st'.frames = []) : st'.pre = none := by
  have comp : ∀ (st : PSt) v, complete ev st v = .ok st' → st'.pre = none := by
    intro st v h
    rw [complete] at h
    split at h
    · obtain ⟨x, _, h⟩ := Res.bind_eq_ok.1 h
      cases h; rfl
    · obtain ⟨x, _, h⟩ := Res.bind_eq_ok.1 h
      cases h; simp at hf
  cases t with
  | popen => simp only [feed] at h; cases h; simp at hf
  | pclose =>
    simp only [feed] at h
    split at h
    · cases h
    · obtain ⟨x, _, h⟩ := Res.bind_eq_ok.1 h
      exact comp _ _ h
  | dot =>
    simp only [feed] at h
    split at h
    · cases h; simp at hf
    · cases h
  | quote => cases ht
  | backt => cases ht
  | tilde => cases ht
  | num n => exact comp _ _ h
  | chr n => exact comp _ _ h
  | str n => exact comp _ _ h
  | nil => exact comp _ _ h
  | tru => exact comp _ _ h
  | wild => exact comp _ _ h
  | sym s => exact comp _ _ h

/-- Between two expressions no prefix is pending. -/
def PSt.Clean (st : PSt) : Prop := st.frames = [] → st.pre = none

theorem feedAll_tokens {ev : Val → Res Val} {st st' : PSt} {r : Rule} {w : List UInt8}
    (h : feedAll ev st (r.tokens w) = .ok st') (hc : st.Clean) : st'.Clean := by
  have key : ∀ ts t, Token.final t = true → feedAll ev st (ts ++ [t]) = .ok st' → st'.Clean := by
    intro ts t ht h
    rw [feedAll_append] at h
    obtain ⟨s1, _, h⟩ := Res.bind_eq_ok.1 h
    rw [feedAll] at h
    obtain ⟨s2, h2, h⟩ := Res.bind_eq_ok.1 h
    cases h
    exact feed_final h2 ht
  cases r <;> first
    | exact key [] _ rfl h
    | exact key [_] _ rfl h
    | (cases h; exact hc)

theorem feedAll_clean {ev : Val → Res Val} {ws : List (List UInt8 × Rule)} {st st' : PSt}
    (h : feedAll ev st (tokensOf ws) = .ok st') (hc : st.Clean) : st'.Clean := by
  induction ws generalizing st with
  | nil => cases h; exact hc
  | cons w ws ih =>
    have e : tokensOf (w :: ws) = w.2.tokens w.1 ++ tokensOf ws := by simp [tokensOf]
    rw [e, feedAll_append] at h
    obtain ⟨s1, h1, h2⟩ := Res.bind_eq_ok.1 h
    exact ih h2 (feedAll_tokens h1 hc)

theorem clean_init : PSt.init.Clean := fun _ => rfl

/-! ## The loop of `lisp_read` -/

/-- The tokens of pieces. -/
def tokensP (wss : List (List (List UInt8 × Rule))) : List Token := wss.flatMap tokensOf

theorem readLoop_pieces (ev : Val → Res Val) {wss : List (List (List UInt8 × Rule))} {t : List UInt8} (hp : Pieces wss t) :
    ∀ {ps st : PSt} {n : Nat}, wss.length < n → ps.Clean → feedAll ev ps (tokensP wss) = .ok st →
    ∃ ps' wss' t', readLoop ev n ⟨[], ps⟩ t = .ok (⟨[], ps'⟩, t') ∧ Pieces wss' t' ∧ wss'.length ≤ wss.length ∧
      ps'.Clean ∧ feedAll ev ps' (tokensP wss') = .ok st ∧ (wss' = [] ∨ (ps'.frames = [] ∧ ps'.vals ≠ [])) := by
  generalize hk : wss.length = k
  induction k generalizing wss t with
  | zero =>
    intro ps st n hn hc h
    obtain rfl := List.length_eq_zero_iff.1 hk
    cases hp
    cases n with
    | zero => omega
    | succ n =>
      refine ⟨ps, [], [], ?_, .nil, by simp, hc, h, .inl rfl⟩
      simp [readLoop, Lex.fgets, rbufLen]
  | succ k ih =>
    intro ps st n hn hc h
    cases n with
    | zero => omega
    | succ n =>
      rcases hp.fgets with ⟨rfl, _⟩ | ⟨ws, wss', chunk, t', rfl, hg, h0, hl, hp'⟩
      · simp at hk
      · have e : tokensP (ws :: wss') = tokensOf ws ++ tokensP wss' := by simp [tokensP]
        rw [e, feedAll_append] at h
        obtain ⟨s1, h1, h2⟩ := Res.bind_eq_ok.1 h
        have hc1 := feedAll_clean h1 hc
        have hlp : lexerParse ev ⟨[], ps⟩ chunk = .ok ⟨[], s1⟩ := by
          rw [lexerParse, List.nil_append, C37_layout hl]
          simp [h1]
        simp only [List.length_cons, Nat.add_right_cancel_iff] at hk
        rw [readLoop]
        simp only [List.length_nil, Nat.sub_zero, hg, h0, hlp, Res.ok_bind]
        split
        · obtain ⟨ps', w2, t2, r1, r2, r3, r4⟩ := ih hp' hk (n := n) (by omega) hc1 h2
          exact ⟨ps', w2, t2, r1, r2, by omega, r4⟩
        · next hcond =>
          refine ⟨s1, wss', t', rfl, hp', by omega, hc1, h2, .inr ?_⟩
          simpa [LSt.pending, and_comm] using hcond

/-- The results of successive reads. -/
def readMany (ev : Val → Res Val) (n : Nat) : Nat → IChan → Res (List (Option Val))
  | 0, _ => .ok []
  | k + 1, c => do
    let (v, c') ← readCh ev n c
    let vs ← readMany ev n k c'
    .ok (v :: vs)

/-- Successive reads of a file deliver the values that its tokens stand for, in order, then the end of the file. -/
theorem readMany_pieces (ev : Val → Res Val) {n : Nat} (k : Nat) {wss : List (List (List UInt8 × Rule))} {t : List UInt8} {st : PSt}
    (hp : Pieces wss t) (hn : wss.length < n) (h : feedAll ev .init (tokensP wss) = .ok st) (hf : st.frames = [])
    (buf : List Val) :
    readMany ev n k ⟨t, buf⟩ = .ok (((buf ++ st.vals).map some ++ List.replicate k none).take k) := by
  induction k generalizing wss t st buf with
  | zero => simp [readMany]
  | succ k ih =>
    rw [readMany]
    have repl : ∀ l : List (Option Val), (l ++ List.replicate (k + 1) none).take k = (l ++ List.replicate k none).take k := by
      intro l
      rw [List.take_append, List.take_append, List.take_replicate, List.take_replicate]
      congr 2; omega
    cases buf with
    | cons v vs =>
      simp only [readCh, readPop, List.isEmpty_cons, Bool.false_eq_true, if_false, Res.ok_bind]
      rw [ih hp hn h hf vs]
      simp only [List.cons_append, List.map_cons, List.take_succ_cons, repl]
      rfl
    | nil =>
      obtain ⟨ps', w2, t2, r1, r2, r3, r4, r5, r6⟩ := readLoop_pieces ev hp hn clean_init h
      simp only [readCh, List.isEmpty_nil, if_true, LSt.init, r1, Res.ok_bind, List.nil_append]
      have hpf : ps'.frames = [] := by
        rcases r6 with rfl | r6
        · simp only [tokensP, List.flatMap_nil, feedAll] at r5; cases r5; exact hf
        · exact r6.1
      have hps : ps' = PSt.after ps'.vals .init := by
        obtain ⟨fs, p, vs⟩ := ps'
        have := r4 hpf
        simp only at hpf this
        subst hpf this
        simp [PSt.after, PSt.init]
      rw [hps, feedAll_after, shift] at r5
      obtain ⟨st2, h2, e2⟩ := Res.bind_eq_ok.1 r5
      have hv : st.vals = ps'.vals ++ st2.vals := by cases e2; rfl
      have hf2 : st2.frames = [] := by cases e2; exact hf
      have key := ih r2 (Nat.lt_of_le_of_lt r3 hn) h2 hf2
      cases hb : ps'.vals with
      | nil =>
        have hw : w2 = [] := by
          rcases r6 with h | h
          · exact h
          · exact absurd hb h.2
        subst hw
        simp only [tokensP, List.flatMap_nil, feedAll] at h2
        have h0 : st2.vals = [] := by cases h2; rfl
        simp only [readPop]
        rw [key [], hv, hb, h0]
        simp [List.replicate_succ]
      | cons v vs =>
        simp only [readPop]
        rw [key vs, hv, hb]
        simp only [List.cons_append, List.map_cons, List.take_succ_cons, repl]
        rfl

/-! ## One pass over a file -/

/-- One lexer over all that `fgets` delivers. -/
def drain (ev : Val → Res Val) : Nat → LSt → List UInt8 → Res LSt
  | 0, _, _ => .oof
  | n + 1, st, l =>
    match fgets (rbufLen - st.rem.length) l with
    | none => .ok st
    | some (chunk, l') => do
      let st' ← lexerParse ev st (chunk.takeWhile (· ≠ 0))
      drain ev n st' l'

theorem lexN_clean {ev : Val → Res Val} {n : Nat} {l : List UInt8} {st st' : PSt} (h : feedAll ev st (lexN n l).1 = .ok st')
    (hc : st.Clean) : st'.Clean := by
  induction n generalizing l st with
  | zero => cases l <;> (simp only [lexN, feedAll] at h; cases h; exact hc)
  | succ n ih =>
    cases l with
    | nil => simp only [lexN, feedAll] at h; cases h; exact hc
    | cons b l =>
      simp only [lexN] at h
      split at h
      · simp only [feedAll] at h; cases h; exact hc
      · split at h
        · simp only [feedAll] at h; cases h; exact hc
        · simp only [feedAll_append] at h
          obtain ⟨s1, h1, h2⟩ := Res.bind_eq_ok.1 h
          exact ih h2 (feedAll_tokens h1 hc)

theorem lexerParse_clean {ev : Val → Res Val} {st st' : LSt} {chunk : List UInt8} (h : lexerParse ev st chunk = .ok st')
    (hc : st.ps.Clean) : st'.ps.Clean := by
  rw [lexerParse, lex] at h
  have key := @lexN_clean ev (st.rem ++ chunk).length (st.rem ++ chunk) st.ps
  generalize lexN _ (st.rem ++ chunk) = q at h key
  obtain ⟨ts, e⟩ := q
  cases e with
  | stuck => cases h
  | done =>
    obtain ⟨s1, h1, h2⟩ := Res.bind_eq_ok.1 h
    cases h2; exact key h1 hc
  | pending r =>
    obtain ⟨s1, h1, h2⟩ := Res.bind_eq_ok.1 h
    cases h2; exact key h1 hc

/-- The same state after other values. -/
def LSt.after (a : List Val) (st : LSt) : LSt := ⟨st.rem, st.ps.after a⟩

theorem lexerParse_after (ev : Val → Res Val) (a : List Val) (st : LSt) (chunk : List UInt8) :
    lexerParse ev (st.after a) chunk = lexerParse ev st chunk >>= fun st' => .ok (st'.after a) := by
  simp only [lexerParse, LSt.after]
  split
  · rfl
  · rw [feedAll_after, shift]
    cases feedAll ev st.ps _ <;> rfl
  · rw [feedAll_after, shift]
    cases feedAll ev st.ps _ <;> rfl

theorem drain_after (ev : Val → Res Val) (a : List Val) (n : Nat) (st : LSt) (l : List UInt8) :
    drain ev n (st.after a) l = drain ev n st l >>= fun st' => .ok (st'.after a) := by
  induction n generalizing st l with
  | zero => rfl
  | succ n ih =>
    have e : (st.after a).rem = st.rem := rfl
    simp only [drain, e]
    cases fgets (rbufLen - st.rem.length) l with
    | none => rfl
    | some q =>
      simp only [lexerParse_after]
      cases lexerParse ev st (q.1.takeWhile (· ≠ 0)) with
      | ok st' => exact ih st' q.2
      | _ => rfl

theorem fgets_none {n : Nat} {l : List UInt8} (h : fgets n l = none) : l = [] := by
  rw [fgets] at h
  split at h
  · cases h
  · split at h
    · next h0 => simpa using h0
    · cases h

theorem readLoop_drain (ev : Val → Res Val) {n m : Nat} {st fin : LSt} {l : List UInt8} (hm : n ≤ m)
    (h : drain ev n st l = .ok fin) (hc : st.ps.Clean) :
    ∃ st' l', readLoop ev m st l = .ok (st', l') ∧ st'.ps.Clean ∧
      ((l' = [] ∧ st' = fin) ∨
       ∃ n', n' < n ∧ drain ev n' st' l' = .ok fin ∧ st'.rem = [] ∧ st'.ps.frames = [] ∧ st'.ps.vals ≠ []) := by
  induction n generalizing m st l with
  | zero => simp [drain] at h
  | succ n ih =>
    obtain ⟨m, rfl⟩ : ∃ k, m = k + 1 := ⟨m - 1, by omega⟩
    simp only [drain] at h
    simp only [readLoop]
    cases hg : fgets (rbufLen - st.rem.length) l with
    | none =>
      rw [hg] at h
      cases h
      exact ⟨_, l, rfl, hc, .inl ⟨fgets_none hg, rfl⟩⟩
    | some q =>
      obtain ⟨chunk, l'⟩ := q
      rw [hg] at h
      obtain ⟨s1, h1, h2⟩ := Res.bind_eq_ok.1 h
      have hc1 := lexerParse_clean h1 hc
      simp only [h1, Res.ok_bind]
      split
      · obtain ⟨st', l2, r1, r2, r3⟩ := ih (m := m) (by omega) h2 hc1
        refine ⟨st', l2, r1, r2, ?_⟩
        rcases r3 with r3 | ⟨n', hn', r3⟩
        · exact .inl r3
        · exact .inr ⟨n', by omega, r3⟩
      · next hcond =>
        refine ⟨s1, l', rfl, hc1, .inr ⟨n, by omega, h2, ?_⟩⟩
        simp [LSt.pending] at hcond
        exact ⟨hcond.2.2, hcond.2.1, hcond.1⟩

theorem readMany_drain (ev : Val → Res Val) {m : Nat} (k : Nat) :
    ∀ {n : Nat} {fin : LSt} {t : List UInt8}, n ≤ m → drain ev n .init t = .ok fin → ∀ (buf : List Val),
    readMany ev m k ⟨t, buf⟩ = .ok (((buf ++ fin.ps.vals).map some ++ List.replicate k none).take k) := by
  induction k with
  | zero => intros; simp [readMany]
  | succ k ih =>
    intro n fin t hm h buf
    have repl : ∀ l : List (Option Val), (l ++ List.replicate (k + 1) none).take k = (l ++ List.replicate k none).take k := by
      intro l
      rw [List.take_append, List.take_append, List.take_replicate, List.take_replicate]
      congr 2; omega
    rw [readMany]
    cases buf with
    | cons v vs =>
      simp only [readCh, readPop, List.isEmpty_cons, Bool.false_eq_true, if_false, Res.ok_bind]
      rw [ih hm h vs]
      simp only [List.cons_append, List.map_cons, List.take_succ_cons, repl]
      rfl
    | nil =>
      obtain ⟨st', l', r1, r2, r3⟩ := readLoop_drain ev hm h clean_init
      simp only [readCh, List.isEmpty_nil, if_true, r1, Res.ok_bind, List.nil_append]
      rcases r3 with ⟨rfl, rfl⟩ | ⟨n', hn', hd, hrem, hfr, hv⟩
      · have hm1 : 1 ≤ m := by
          cases n with
          | zero => simp [drain] at h
          | succ n => omega
        have key := ih (n := 1) (fin := .init) (t := []) hm1 rfl
        cases hb : st'.ps.vals with
        | nil =>
          simp only [readPop, key]
          simp [LSt.init, PSt.init, List.replicate_succ]
        | cons v vs =>
          simp only [readPop, key]
          simp only [LSt.init, PSt.init, List.append_nil, List.cons_append, List.map_cons, List.take_succ_cons, repl]
          rfl
      · have hst : st' = LSt.after st'.ps.vals .init := by
          obtain ⟨rem, fs, p, vs⟩ := st'
          have := r2 hfr
          simp only at hrem hfr this
          subst hrem hfr this
          simp [LSt.after, PSt.after, LSt.init, PSt.init]
        rw [hst, drain_after] at hd
        obtain ⟨fin2, h2, e2⟩ := Res.bind_eq_ok.1 hd
        have hv2 : fin.ps.vals = st'.ps.vals ++ fin2.ps.vals := by cases e2; rfl
        cases hb : st'.ps.vals with
        | nil => exact absurd hb hv
        | cons v vs =>
          simp only [readPop]
          rw [ih (Nat.le_trans (Nat.le_of_lt hn') hm) h2 vs, hv2, hb]
          simp only [List.cons_append, List.map_cons, List.take_succ_cons, repl]
          rfl

end Lex
end Mnml
