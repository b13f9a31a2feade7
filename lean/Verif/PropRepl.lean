import Verif.PropMain
import Verif.PropPrint

/-!
# C70: the prompt
-/

namespace Mnml
namespace Module

open Val Lex Print

/-! ## What happens at the prompt -/

/-- The state after `t` has been written. -/
def Wrote (t : List UInt8) (s s' : SSt) : Prop := s' = { s with st := { s.st with out := s.st.out ++ t } }

/-- The expressions are evaluated one after the other at top level; after each of them its value is shown on a line of its own that begins with
`"> "`. -/
inductive Shown (os : Os) (ev : Val → M Val) : List Val → SSt → SSt → Prop where
  | nil {s : SSt} : Shown os ev [] s s
  | cons {n : Nat} {e v : Val} {es : List Val} {t : List UInt8} {s s1 s2 s3 : SSt} (h : evalTop os ev n e s = .ok (v, s1))
      (hp : prin v true = .ok t) (hw : Wrote ([62, 32] ++ t ++ [10]) s1 s2) (ht : Shown os ev es s2 s3) : Shown os ev (e :: es) s s3

/-- A session: for every entry one prompt `": "`, then the expressions of the entry; at the end one prompt that remains without answer. -/
inductive Talk (os : Os) (ev : Val → M Val) : List (List Val) → SSt → SSt → Prop where
  | nil {s s' : SSt} (hw : Wrote [58, 32] s s') : Talk os ev [] s s'
  | cons {b : List Val} {bs : List (List Val)} {s s1 s2 s3 : SSt} (hw : Wrote [58, 32] s s1) (hb : Shown os ev b s1 s2)
      (ht : Talk os ev bs s2 s3) : Talk os ev (b :: bs) s s3

/-- The values that successive refills of the buffer of a channel yield. -/
inductive Fills : List UInt8 → List (List Val) → Prop where
  | nil {t t' : List UInt8} {n : Nat} {st : LSt} (h : readLoop (fun _ => .unsupported) n .init t = .ok (st, t')) (hv : st.ps.vals = []) :
      Fills t []
  | cons {t t' : List UInt8} {n : Nat} {st : LSt} {bs : List (List Val)} (h : readLoop (fun _ => .unsupported) n .init t = .ok (st, t'))
      (hv : st.ps.vals ≠ []) (ht : Fills t' bs) : Fills t (st.ps.vals :: bs)

theorem say_wrote (t : List UInt8) (s : SSt) : Wrote t s (say t s) := rfl

theorem say_line (t : List UInt8) (s : SSt) : say [10] (say t (say [62, 32] s)) = say ([62, 32] ++ t ++ [10]) s := by
  simp [say, List.append_assoc]

theorem replLoop_le (os : Os) (ev : Val → M Val) {n m : Nat} (h : n ≤ m) (c : IChan) (s : SSt) : RLe (replLoop os ev n c s) (replLoop os ev m c s) := by
  induction n generalizing m c s with
  | zero => exact .oof _
  | succ n ih =>
    obtain ⟨m, rfl⟩ : ∃ k, m = k + 1 := ⟨m - 1, by omega⟩
    simp only [replLoop]
    refine RLe.bind (readCh_le _ (by omega) _) fun q => ?_
    split
    · exact .refl _
    · exact RLe.bind ((script_le os ev n m (by omega)).1 _ _) fun p => RLe.bind (.refl _) fun t => ih (by omega) _ _

/-- The rest of a session in which the values `b` wait in the buffer. -/
def Rest (os : Os) (ev : Val → M Val) (b : List Val) (bs : List (List Val)) (s s' : SSt) : Prop :=
  ∃ q, Shown os ev b s q ∧ Talk os ev bs q s'

theorem readLoop_det {n m : Nat} {st : LSt} {l : List UInt8} {a b : LSt × List UInt8} (ha : readLoop (fun _ => .unsupported) n st l = .ok a)
    (hb : readLoop (fun _ => .unsupported) m st l = .ok b) : a = b := by
  have ha := (readLoop_le _ (Nat.le_max_left n m) st l).ok ha
  have hb := (readLoop_le _ (Nat.le_max_right n m) st l).ok hb
  rw [ha] at hb
  exact Res.ok.inj hb

theorem replLoop_rest {os : Os} {ev : Val → M Val} {n : Nat} : ∀ {t : List UInt8} {b : List Val} {bs : List (List Val)} {s s' : SSt} {w : Val},
    Fills t bs → replLoop os ev n ⟨t, b⟩ s = .ok (w, s') → w = nil ∧ Rest os ev b bs s s' := by
  induction n with
  | zero => intro t b bs s s' w hf h; simp [replLoop] at h
  | succ n ih =>
    intro t b bs s s' w hf h
    cases b with
    | cons e b =>
      simp only [replLoop, List.isEmpty_cons, Bool.false_eq_true, if_false, readCh, readPop, Res.ok_bind] at h
      obtain ⟨⟨v, s1⟩, h1, h⟩ := Res.bind_eq_ok.1 h
      obtain ⟨x, h2, h⟩ := Res.bind_eq_ok.1 h
      simp only [say_line] at h
      obtain ⟨hw, q, h3, h4⟩ := ih hf h
      exact ⟨hw, q, .cons h1 h2 (say_wrote _ _) h3, h4⟩
    | nil =>
      simp only [replLoop, List.isEmpty_nil, if_true, readCh] at h
      obtain ⟨⟨v, c⟩, h1, h⟩ := Res.bind_eq_ok.1 h
      obtain ⟨⟨st, t'⟩, h2, h3⟩ := Res.bind_eq_ok.1 h1
      cases hf with
      | nil h4 hv =>
        cases readLoop_det h2 h4
        simp only [hv, readPop] at h3
        cases h3
        cases h
        exact ⟨rfl, _, .nil, .nil (say_wrote _ _)⟩
      | @cons _ _ k _ bs h4 hv ht =>
        cases readLoop_det h2 h4
        cases hb : st.ps.vals with
        | nil => exact absurd hb hv
        | cons e b =>
          simp only [hb, readPop] at h3
          cases h3
          simp only at h
          obtain ⟨⟨v, s1⟩, h5, h⟩ := Res.bind_eq_ok.1 h
          obtain ⟨x, h6, h⟩ := Res.bind_eq_ok.1 h
          simp only [say_line] at h
          obtain ⟨hw, q, h7, h8⟩ := ih ht h
          exact ⟨hw, _, .nil, .cons (say_wrote _ _) (.cons h5 h6 (say_wrote _ _) h7) h8⟩

theorem rest_replLoop {os : Os} {ev : Val → M Val} {t : List UInt8} {bs : List (List Val)} (hf : Fills t bs) :
    ∀ {b : List Val} {s s' : SSt}, Rest os ev b bs s s' → ∃ n, replLoop os ev n ⟨t, b⟩ s = .ok (nil, s') := by
  induction hf with
  | @nil t t' n st h hv =>
    rintro b s s' ⟨q, h1, h2⟩
    induction h1 with
    | nil =>
      cases h2 with
      | nil hw =>
        refine ⟨n + 1, ?_⟩
        unfold Wrote at hw
        simp only [replLoop, List.isEmpty_nil, if_true, readCh, h, Res.ok_bind, hv, readPop, hw]
        rfl
    | @cons k e v es x s s1 s2 s3 h3 hp hw ht ih =>
      obtain ⟨m, hm⟩ := ih h2
      refine ⟨max k m + 1, ?_⟩
      have a1 := ((script_le os ev k (max k m) (by omega)).1 e s).ok h3
      have a2 := (replLoop_le os ev (Nat.le_max_right k m) _ _).ok hm
      simp only [replLoop, List.isEmpty_cons, Bool.false_eq_true, if_false, readCh, readPop, Res.ok_bind, a1, hp, say_line]
      rw [hw] at a2
      exact a2
  | @cons t t' n st bs h hv ht ih0 =>
    rintro b s s' ⟨q, h1, h2⟩
    induction h1 with
    | nil =>
      cases h2 with
      | @cons _ _ _ s1 s2 _ hw hb hr =>
        cases hb' : st.ps.vals with
        | nil => exact absurd hb' hv
        | cons e es =>
          rw [hb'] at hb
          cases hb with
          | @cons k _ v _ x _ s3 s4 _ h3 hp hw2 hs =>
            obtain ⟨m, hm⟩ := ih0 ⟨_, hs, hr⟩
            refine ⟨max n (max k m) + 1, ?_⟩
            have a0 := (readLoop_le (fun _ => .unsupported) (Nat.le_max_left n (max k m)) _ _).ok h
            rw [hw] at h3
            have a1 := ((script_le os ev k (max n (max k m)) (by omega)).1 e _).ok h3
            have a2 := (replLoop_le os ev (show m ≤ max n (max k m) by omega) _ _).ok hm
            rw [hw2] at a2
            simp only [replLoop, List.isEmpty_nil, if_true, readCh, a0, Res.ok_bind, hb', readPop, say]
            simp only [a1, Res.ok_bind, hp]
            simpa [List.append_assoc] using a2
    | @cons k e v es x s s1 s2 s3 h3 hp hw hs ih =>
      obtain ⟨m, hm⟩ := ih h2
      refine ⟨max k m + 1, ?_⟩
      have a1 := ((script_le os ev k (max k m) (by omega)).1 e s).ok h3
      have a2 := (replLoop_le os ev (Nat.le_max_right k m) _ _).ok hm
      simp only [replLoop, List.isEmpty_cons, Bool.false_eq_true, if_false, readCh, readPop, Res.ok_bind, a1, hp, say_line]
      rw [hw] at a2
      exact a2

theorem Shown.dirs {os : Os} {ev : Val → M Val} {es : List Val} {s s' : SSt} (h : Shown os ev es s s') : s'.dirs = s.dirs := by
  induction h with
  | nil => rfl
  | @cons n _ _ _ _ _ _ _ _ h _ hw ht ih => rw [ih, hw, ← (script_dirs os ev n).1 _ _ _ _ h]

theorem Talk.dirs {os : Os} {ev : Val → M Val} {bs : List (List Val)} {s s' : SSt} (h : Talk os ev bs s s') : s'.dirs = s.dirs := by
  induction h with
  | nil hw => rw [hw]
  | cons hw hb ht ih => rw [ih, hb.dirs, hw]

/-! ## Entries -/

/-- The lines `wss` are an entry with the values `vs`: after the last line, and not before, there are values and no list is open. -/
structure Entry (wss : List (List (List UInt8 × Rule))) (vs : List Val) : Prop where
  lines : wss ≠ []
  vals : vs ≠ []
  whole : ∃ st, feedAll (fun _ => .unsupported) .init (tokensP wss) = .ok st ∧ st.frames = [] ∧ st.vals = vs
  early : ∀ k, 0 < k → k < wss.length → ∀ st, feedAll (fun _ => .unsupported) .init (tokensP (wss.take k)) = .ok st → st.frames ≠ [] ∨ st.vals = []

theorem tokensP_append (a b : List (List (List UInt8 × Rule))) : tokensP (a ++ b) = tokensP a ++ tokensP b := by simp [tokensP]

/-- One refill reads exactly the lines of one entry. -/
theorem readLoop_entry {t : List UInt8} {vs : List Val} {todo : List (List (List UInt8 × Rule))} :
    ∀ {seen rest : List (List (List UInt8 × Rule))} {ps : PSt}, todo ≠ [] → Entry (seen ++ todo) vs → Pieces (todo ++ rest) t →
    feedAll (fun _ => .unsupported) .init (tokensP seen) = .ok ps →
    ∃ st t', (∀ n, todo.length < n → readLoop (fun _ => .unsupported) n ⟨[], ps⟩ t = .ok (⟨[], st⟩, t')) ∧ st.vals = vs ∧ Pieces rest t' := by
  induction todo generalizing t with
  | nil => intro _ _ _ h; exact absurd rfl h
  | cons ws todo ih =>
    intro seen rest ps _ he hp hf
    rcases hp.fgets with ⟨h, _⟩ | ⟨ws', wss', chunk, t', e1, hg, h0, hl, hp'⟩
    · simp at h
    · simp only [List.cons_append, List.cons.injEq] at e1
      obtain ⟨rfl, rfl⟩ := e1
      obtain ⟨fin, hw, hfr, hv⟩ := he.whole
      have e2 : seen ++ ws :: todo = (seen ++ [ws]) ++ todo := by simp
      rw [e2, tokensP_append, feedAll_append] at hw
      obtain ⟨s1, h1, h2⟩ := Res.bind_eq_ok.1 hw
      have h1' := h1
      rw [tokensP_append, feedAll_append, hf] at h1'
      have h1'' : feedAll (fun _ => .unsupported) ps (tokensOf ws) = .ok s1 := by simpa [tokensP] using h1'
      have hlp : lexerParse (fun _ => .unsupported) ⟨[], ps⟩ chunk = .ok ⟨[], s1⟩ := by
        rw [lexerParse, List.nil_append, C37_layout hl]
        simp [h1'']
      cases todo with
      | nil =>
        have e3 : s1 = fin := by simp only [tokensP, List.flatMap_nil, feedAll] at h2; exact Res.ok.inj h2
        subst e3
        refine ⟨s1, t', fun n hn => ?_, hv, by simpa using hp'⟩
        obtain ⟨n, rfl⟩ : ∃ k, n = k + 1 := ⟨n - 1, by simp at hn; omega⟩
        rw [readLoop]
        simp only [List.length_nil, Nat.sub_zero, hg, h0, hlp, Res.ok_bind]
        rw [if_neg]
        simp [LSt.pending, hfr, hv, he.vals]
      | cons w2 todo =>
        obtain ⟨st, t2, r1, r2, r3⟩ := ih (t := t') (seen := seen ++ [ws]) (rest := rest) (ps := s1) (by simp) (by rw [← e2]; exact he)
          (by simpa using hp') h1
        refine ⟨st, t2, fun n hn => ?_, r2, r3⟩
        obtain ⟨n, rfl⟩ : ∃ k, n = k + 1 := ⟨n - 1, by simp at hn; omega⟩
        rw [readLoop]
        simp only [List.length_nil, Nat.sub_zero, hg, h0, hlp, Res.ok_bind]
        rw [if_pos]
        · exact r1 n (by simp at hn ⊢; omega)
        · have ht : (seen ++ ws :: w2 :: todo).take (seen.length + 1) = seen ++ [ws] := by
            rw [List.take_append, List.take_of_length_le (by omega)]
            simp
          have := he.early (seen.length + 1) (by omega) (by simp) s1 (by rw [ht]; exact h1)
          rcases this with h | h
          · simp [LSt.pending, h]
          · simp [h]

/-- Lines without values: blank lines, comments and lists that are never closed. -/
theorem readLoop_blank {wss : List (List (List UInt8 × Rule))} {t : List UInt8} {st : PSt} (hp : Pieces wss t)
    (h : feedAll (fun _ => .unsupported) .init (tokensP wss) = .ok st) (hv : st.vals = []) :
    ∃ t', readLoop (fun _ => .unsupported) (wss.length + 1) .init t = .ok (⟨[], st⟩, t') := by
  obtain ⟨ps', wss', t', r1, r2, r3, r4, r5, r6⟩ := readLoop_pieces _ hp (Nat.lt_succ_self _) clean_init h
  rcases r6 with rfl | r6
  · simp only [tokensP, List.flatMap_nil, feedAll] at r5
    cases r5
    exact ⟨t', r1⟩
  · exfalso
    have hps : ps' = PSt.after ps'.vals .init := by
      obtain ⟨fs, p, vs⟩ := ps'
      have := r4 r6.1
      simp only at r6 this
      obtain ⟨rfl, -⟩ := r6
      subst this
      simp [PSt.after, PSt.init]
    rw [hps, feedAll_after, shift] at r5
    obtain ⟨st2, h2, e2⟩ := Res.bind_eq_ok.1 r5
    have : st.vals = ps'.vals ++ st2.vals := by cases e2; rfl
    rw [hv] at this
    exact r6.2 (by simpa using (List.append_eq_nil_iff.1 this.symm).1)

/-- The text of entries, followed by lines without values, fills the buffer once for each entry. -/
theorem fills_entries {es : List (List (List (List UInt8 × Rule)) × List Val)} {blank : List (List (List UInt8 × Rule))} {t : List UInt8}
    {st : PSt} (he : ∀ p ∈ es, Entry p.1 p.2) (hp : Pieces ((es.map Prod.fst).flatten ++ blank) t)
    (hb : feedAll (fun _ => .unsupported) .init (tokensP blank) = .ok st) (hv : st.vals = []) : Fills t (es.map Prod.snd) := by
  induction es generalizing t with
  | nil =>
    obtain ⟨t', h⟩ := readLoop_blank (by simpa using hp) hb hv
    exact .nil h hv
  | cons p es ih =>
    have h := he p (by simp)
    obtain ⟨st1, t', r1, r2, r3⟩ := readLoop_entry (seen := []) (rest := (es.map Prod.fst).flatten ++ blank) h.lines (by simpa using h)
      (by simpa [List.append_assoc] using hp) rfl
    have := Fills.cons (r1 _ (Nat.lt_succ_self _)) (by rw [r2]; exact h.vals) (ih (fun q hq => he q (by simp [hq])) r3)
    rw [r2] at this
    exact this

theorem drain_fills {n : Nat} {t : List UInt8} {fin : LSt} (h : drain (fun _ => .unsupported) n .init t = .ok fin) :
    ∃ bs, Fills t bs ∧ bs.flatten = fin.ps.vals ∧ ∀ b ∈ bs, b ≠ [] := by
  induction n using Nat.strongRecOn generalizing t fin with
  | ind n ih =>
    obtain ⟨st', l', r1, r2, r3⟩ := readLoop_drain (fun _ => .unsupported) (Nat.le_refl n) h clean_init
    rcases r3 with ⟨rfl, rfl⟩ | ⟨n', hn', hd, hrem, hfr, hv⟩
    · by_cases hb : st'.ps.vals = []
      · exact ⟨[], .nil r1 hb, by simp [hb], by simp⟩
      · refine ⟨[st'.ps.vals], .cons r1 hb (.nil (n := 1) (st := .init) (t' := []) rfl rfl), by simp, by simp [hb]⟩
    · have hst : st' = LSt.after st'.ps.vals .init := by
        obtain ⟨rem, fs, p, vs⟩ := st'
        have := r2 hfr
        simp only at hrem hfr this
        subst hrem hfr this
        simp [LSt.after, PSt.after, LSt.init, PSt.init]
      rw [hst, drain_after] at hd
      obtain ⟨fin2, h2, e2⟩ := Res.bind_eq_ok.1 hd
      have hv2 : fin.ps.vals = st'.ps.vals ++ fin2.ps.vals := by cases e2; rfl
      obtain ⟨bs, b1, b2, b3⟩ := ih n' hn' h2
      refine ⟨st'.ps.vals :: bs, .cons r1 hv b1, by simp [b2, hv2], ?_⟩
      intro b hb
      rcases List.mem_cons.1 hb with rfl | hb
      · exact hv
      · exact b3 b hb

theorem main_prompt {os : Os} {ev : Val → M Val} {b : Build} {c : Call} {s : SSt} {bs : List (List Val)} (ha : c.args = []) (he : c.expr = none)
    (hs : prepare os b c = .ok s) (hf : Fills c.input bs) (k : Int) (w : Val) (s' : SSt) :
    (∃ n, main os ev n b c = .ok (k, w, s')) ↔
      ∃ q, Talk os ev bs (push c.cwd s) q ∧ s' = { q with dirs := s.dirs } ∧ w = nil ∧ k = -1 := by
  simp only [main, hs, ha, he, Res.ok_bind]
  constructor
  · rintro ⟨n, h⟩
    obtain ⟨⟨r, q⟩, h1, h2⟩ := Res.bind_eq_ok.1 h
    obtain ⟨rfl, q0, h5, h6⟩ := replLoop_rest hf h1
    cases h5
    cases h2
    refine ⟨q, h6, ?_, rfl, rfl⟩
    rw [h6.dirs]; rfl
  · rintro ⟨q, hr, rfl, rfl, rfl⟩
    obtain ⟨n, hn⟩ := rest_replLoop (b := []) hf ⟨_, .nil, hr⟩
    have e : q.dirs.tail = s.dirs := by rw [hr.dirs]; rfl
    exact ⟨n, by rw [hn]; simp only [Res.ok_bind, e]; rfl⟩

/-- **C70.** `mnml` without arguments on an input that consists of entries, each of one line or of several, followed by lines without values:
for every entry it prompts once, evaluates the expressions of the entry in their order and shows the value of each; it ends after one more prompt. -/
theorem C70_entries {os : Os} {ev : Val → M Val} {b : Build} {c : Call} {s : SSt} {es : List (List (List (List UInt8 × Rule)) × List Val)}
    {blank : List (List (List UInt8 × Rule))} {st : PSt} (ha : c.args = []) (hx : c.expr = none) (hs : prepare os b c = .ok s)
    (he : ∀ p ∈ es, Entry p.1 p.2) (hp : Pieces ((es.map Prod.fst).flatten ++ blank) c.input)
    (hb : feedAll (fun _ => .unsupported) .init (tokensP blank) = .ok st) (hv : st.vals = []) (k : Int) (w : Val) (s' : SSt) :
    (∃ n, main os ev n b c = .ok (k, w, s')) ↔
      ∃ q, Talk os ev (es.map Prod.snd) (push c.cwd s) q ∧ s' = { q with dirs := s.dirs } ∧ w = nil ∧ k = -1 :=
  main_prompt ha hx hs (fills_entries he hp hb hv) k w s'

/-- A printed value on a line of its own is an entry. -/
theorem entry_line {v : Val} (h : Readable v) : Entry [words v] [v.erase] where
  lines := by simp
  vals := by simp
  whole := ⟨_, fileOf_tokens _ [v] (by simpa using h) [], rfl, rfl⟩
  early := by intro k h1 h2; simp at h2; omega

/-- **C70.** If the input consists of printed values, one per line, each gets one prompt and one line of output. -/
theorem C70_lines {os : Os} {ev : Val → M Val} {b : Build} {c : Call} {s : SSt} {vs : List Val} (ha : c.args = []) (hx : c.expr = none)
    (hs : prepare os b c = .ok s) (hi : c.input = fileOf vs) (hv : ∀ v ∈ vs, Readable v ∧ (text v).length ≤ 1022) (k : Int) (w : Val) (s' : SSt) :
    (∃ n, main os ev n b c = .ok (k, w, s')) ↔
      ∃ q, Talk os ev (vs.map fun v => [v.erase]) (push c.cwd s) q ∧ s' = { q with dirs := s.dirs } ∧ w = nil ∧ k = -1 := by
  have e1 : (vs.map fun v => ([words v], [v.erase])).map Prod.snd = vs.map fun v => [v.erase] := by simp
  have e2 : ∀ us : List Val, ((us.map fun v => ([words v], [v.erase])).map Prod.fst).flatten ++ [] = us.map words := by
    intro us
    induction us with
    | nil => rfl
    | cons v us ih => simpa using ih
  rw [← e1]
  refine C70_entries (blank := []) (st := .init) ha hx hs ?_ ?_ rfl rfl k w s'
  · intro p hp
    obtain ⟨v, h, rfl⟩ := List.mem_map.1 hp
    exact entry_line (hv v h).1
  · rw [e2, hi]
    exact fileOf_pieces vs hv

/-- **C70.** Whatever the input is: if one pass of a lexer over it yields the values `vs`, the prompt evaluates exactly these, in this order, in
entries that are not empty. -/
theorem C70_values {os : Os} {ev : Val → M Val} {b : Build} {c : Call} {s : SSt} {m : Nat} {fin : LSt} (ha : c.args = []) (hx : c.expr = none)
    (hs : prepare os b c = .ok s) (hd : drain (fun _ => .unsupported) m .init c.input = .ok fin) :
    ∃ bs : List (List Val), bs.flatten = fin.ps.vals ∧ (∀ b ∈ bs, b ≠ []) ∧ ∀ (k : Int) (w : Val) (s' : SSt),
      (∃ n, main os ev n b c = .ok (k, w, s')) ↔
        ∃ q, Talk os ev bs (push c.cwd s) q ∧ s' = { q with dirs := s.dirs } ∧ w = nil ∧ k = -1 := by
  obtain ⟨bs, h1, h2, h3⟩ := drain_fills hd
  exact ⟨bs, h2, h3, main_prompt ha hx hs h1⟩

/-- **C70.** The exit status of the prompt is never 0, whatever the last value was: the value is replaced by NIL at the end of the input. -/
theorem C70_status {os : Os} {ev : Val → M Val} {b : Build} {c : Call} {n : Nat} {k : Int} {w : Val} {s' : SSt} (ha : c.args = []) (hx : c.expr = none)
    (h : main os ev n b c = .ok (k, w, s')) : k = -1 ∧ w = nil := by
  have key : ∀ {n : Nat} {ch : IChan} {s s' : SSt} {w : Val}, replLoop os ev n ch s = .ok (w, s') → w = nil := by
    intro n
    induction n with
    | zero => intro ch s s' w h; simp [replLoop] at h
    | succ n ih =>
      intro ch s s' w h
      simp only [replLoop] at h
      obtain ⟨⟨v, c1⟩, -, h⟩ := Res.bind_eq_ok.1 h
      cases v with
      | none => cases h; rfl
      | some e =>
        obtain ⟨p, -, h⟩ := Res.bind_eq_ok.1 h
        obtain ⟨x, -, h⟩ := Res.bind_eq_ok.1 h
        exact ih h
  simp only [main, ha, hx] at h
  obtain ⟨s, -, h⟩ := Res.bind_eq_ok.1 h
  obtain ⟨⟨r, q⟩, h1, h2⟩ := Res.bind_eq_ok.1 h
  obtain rfl := key h1
  cases h2
  exact ⟨rfl, rfl⟩

/-! ### Examples -/

/-- The hypotheses of `C70_entries`: the entry `(` / `5)` and a blank line. -/
example : Entry [[([40], .popen)], [([53], .number), ([41], .pclose)]] [ofList [num 5]] ∧
    Pieces ([[[([40], Rule.popen)], [([53], .number), ([41], .pclose)]]].flatten ++ [[]]) [40, 10, 53, 41, 10, 10] ∧
    feedAll (fun _ => .unsupported) .init (tokensP [[]]) = .ok .init := by
  refine ⟨⟨by simp, by simp, ⟨⟨[], none, [ofList [num 5]]⟩, by decide +kernel, rfl, rfl⟩, ?_⟩, ?_, rfl⟩
  · intro k h1 h2 st hst
    obtain rfl : k = 1 := by simp at h2; omega
    have : feedAll (fun _ => .unsupported) .init (tokensP [[([40], .popen)]]) = .ok ⟨[⟨none, none, none⟩], none, []⟩ := by decide +kernel
    simp only [List.take_succ_cons, List.take_zero, this] at hst
    cases hst
    simp
  · have l1 : Layout [([40], .popen)] [40] := .word ⟨by decide, by simp, by simp, by simp⟩ (.inl rfl) .nil
    have l2 : Layout [([53], .number), ([41], .pclose)] ([53] ++ ([41] ++ [])) :=
      .word ⟨by decide, by simp, by simp, by simp⟩ (.inr (by decide)) (.word ⟨by decide, by simp, by simp, by simp⟩ (.inl rfl) .nil)
    exact .line l1 (by simp [OneLine]) (by simp) (.line l2 (by simp [OneLine]) (by simp) (.line .nil (by simp [OneLine]) (by simp) .nil))

def demoPrompt (t : List UInt8) : Call := { demoCall none [] with input := t }

/-- The entries `1 2` and `(quote` / `5)` and a blank line. -/
example : (main demoStd (evalN 10 nil) 20 demoBuild (demoPrompt (lit
      ['1', ' ', '2', '\n', '\n', '(', 'q', 'u', 'o', 't', 'e', '\n', '5', ')', '\n']))).bind (fun q => .ok (q.1, q.2.1, q.2.2.st.out)) =
    .ok (-1, nil, lit [':', ' ', '>', ' ', '1', '\n', '>', ' ', '2', '\n', ':', ' ', '>', ' ', '(', '5', ')', '\n', ':', ' ']) := by
  decide +kernel

end Module
end Mnml
