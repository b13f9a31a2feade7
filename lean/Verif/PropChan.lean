import Verif.ReadSem
import Verif.Chan

/-!
# C45, C46, C36: channels

Reading in order, the discipline of the channel stacks, `readline`, and the round trip through a file.
-/

namespace Mnml
namespace Lex

open Val

/-! ## C45: values are delivered in order -/

/-- **C45.** Whatever the file and the rest of the program: the values in the buffer of a channel come first, in order, and reading them
does not touch the file. -/
theorem C45_fifo (ev : Val → Res Val) (n : Nat) (vs : List Val) (rest : List UInt8) :
    readMany ev n vs.length ⟨rest, vs⟩ = .ok (vs.map some) := by
  induction vs with
  | nil => rfl
  | cons v vs ih => simp [readMany, readCh, readPop, ih]

/-- **C45.** A read that finds the buffer empty takes the first of the values that the next lines provide and keeps the others in order. -/
theorem C45_refill (ev : Val → Res Val) (n : Nat) {rest l : List UInt8} {st : LSt}
    (h : readLoop ev n .init rest = .ok (st, l)) {v : Val} {vs : List Val} (hv : st.ps.vals = v :: vs) :
    readCh ev n ⟨rest, []⟩ = .ok (some v, ⟨l, vs⟩) := by
  simp [readCh, h, readPop, hv]

/-- **C45.** For every file, whatever its lines, strings and syntax are: if one pass of a single lexer over all that `fgets` delivers yields the
values `vs`, then successive reads, which stop as soon as they have a value and begin again with a new lexer, deliver exactly these
values in this order, then the end of the file again and again. -/
theorem C45_file (ev : Val → Res Val) {n : Nat} (k : Nat) {t : List UInt8} {fin : LSt} (h : drain ev n .init t = .ok fin) :
    readMany ev n k ⟨t, []⟩ = .ok ((fin.ps.vals.map some ++ List.replicate k none).take k) := by
  simpa using readMany_drain ev k (Nat.le_refl n) h []

/-- A string that spans two lines, two values on the second line, a list that spans two lines: `"a⏎b" 1⏎(2⏎3)`. -/
example : (drain (fun _ => .unsupported) 9 .init [34, 97, 10, 98, 34, 32, 49, 10, 40, 50, 10, 51, 41]).bind (fun st => .ok st.ps.vals) =
      .ok [strVal [97, 10, 98], .num 1, ofList [.num 2, .num 3]] ∧
    readMany (fun _ => .unsupported) 9 4 ⟨[34, 97, 10, 98, 34, 32, 49, 10, 40, 50, 10, 51, 41], []⟩ =
      .ok [some (strVal [97, 10, 98]), some (.num 1), some (ofList [.num 2, .num 3]), none] := by
  constructor <;> decide_cbv

/-- **C45.** Successive reads of a file deliver the values that its tokens stand for, in the order of the file, then the end of the file
again and again. -/
theorem C45_order (ev : Val → Res Val) {n : Nat} (k : Nat) {wss : List (List (List UInt8 × Rule))} {t : List UInt8} {vs : List Val}
    (hp : Pieces wss t) (hn : wss.length < n) (h : feedAll ev .init (tokensP wss) = .ok ⟨[], none, vs⟩) :
    readMany ev n k ⟨t, []⟩ = .ok ((vs.map some ++ List.replicate k none).take k) := by
  have := readMany_pieces ev k hp hn h rfl []
  simpa using this

/-! ## C36: the round trip through a file -/

theorem decNat_bytes (n : Nat) : ∀ b ∈ decNat n, b ≠ 10 ∧ b ≠ 0 := by
  intro b hb
  have := (decNat_digits n).2.1 b hb
  refine ⟨?_, ?_⟩ <;> rintro rfl <;> exact absurd this (by decide)

theorem leaf_oneLine {v : Val} (h : Readable v) (hp : v.isPair = false) : OneLine (leafText v) := by
  cases v with
  | pair => simp [isPair] at hp
  | nil => simp [OneLine, leafText, ascii]
  | tru => simp [OneLine, leafText, ascii]
  | wild => simp [OneLine, leafText, ascii]
  | num n =>
    intro b hb
    simp only [leafText, decInt] at hb
    split at hb
    · rcases List.mem_cons.1 hb with rfl | hb
      · decide
      · exact decNat_bytes _ b hb
    · exact decNat_bytes _ b hb
  | sym tc s =>
    intro b hb
    have := isSymbol_all h.1.model.1 b hb
    refine ⟨?_, ?_⟩ <;> rintro rfl <;> exact absurd this (by decide)
  | chr c =>
    have key : ((List.range 128).all fun n => let c : Int := n
        !((32 ≤ c && c ≤ 126 && c != 92) || c == 27 || c == 10 || c == 13 || c == 9) ||
          (leafText (chr c)).all fun b => b != 10 && b != 0) = true := by decide +kernel
    rw [List.all_eq_true] at key
    simp only [Readable] at h
    have hm := key c.toNat (List.mem_range.2 (by omega))
    have hc : ((c.toNat : Nat) : Int) = c := by omega
    simp only [hc] at hm
    have hb : ((32 ≤ c && c ≤ 126 && c != 92) || c == 27 || c == 10 || c == 13 || c == 9) = true := by
      simp only [Bool.or_eq_true, Bool.and_eq_true, decide_eq_true_eq, bne_iff_ne, beq_iff_eq]
      omega
    rw [hb] at hm
    intro b hbm
    simp only [Bool.not_true, Bool.false_or, List.all_eq_true] at hm
    simpa using hm b hbm

theorem OneLine.append {u v : List UInt8} (hu : OneLine u) (hv : OneLine v) : OneLine (u ++ v) := by
  intro x hx
  rcases List.mem_append.1 hx with h | h
  · exact hu x h
  · exact hv x h

theorem text_oneLine (v : Val) (h : Readable v) : OneLine (text v) ∧ OneLine (textTail v) := by
  have b : ∀ x : UInt8, x ≠ 10 → x ≠ 0 → OneLine [x] := by
    intro x h1 h2 y hy; rw [List.mem_singleton.1 hy]; exact ⟨h1, h2⟩
  have dot : OneLine [32, 46, 32] := by simp [OneLine]
  induction v with
  | pair tc a d iha ihd =>
    refine ⟨?_, ?_⟩
    · simp only [text]
      exact (((b 40 (by decide) (by decide)).append (iha h.1).1).append (ihd h.2).2).append (b 41 (by decide) (by decide))
    · simp only [textTail]
      exact ((b 32 (by decide) (by decide)).append (iha h.1).1).append (ihd h.2).2
  | nil => exact ⟨leaf_oneLine (v := nil) h rfl, by simp [OneLine, textTail]⟩
  | tru => exact ⟨leaf_oneLine (v := tru) h rfl, dot.append (leaf_oneLine (v := tru) h rfl)⟩
  | wild => exact ⟨leaf_oneLine (v := wild) h rfl, dot.append (leaf_oneLine (v := wild) h rfl)⟩
  | chr c => exact ⟨leaf_oneLine (v := chr c) h rfl, dot.append (leaf_oneLine (v := chr c) h rfl)⟩
  | num n => exact ⟨leaf_oneLine (v := num n) h rfl, dot.append (leaf_oneLine (v := num n) h rfl)⟩
  | sym tc s => exact ⟨leaf_oneLine (v := sym tc s) h rfl, dot.append (leaf_oneLine (v := sym tc s) h rfl)⟩

/-- The file that `printl` writes for several values: one per line. -/
def fileOf (vs : List Val) : List UInt8 := vs.flatMap fun v => text v ++ [10]

theorem fileOf_pieces (vs : List Val) (h : ∀ v ∈ vs, Readable v ∧ (text v).length ≤ 1022) :
    Pieces (vs.map words) (fileOf vs) := by
  induction vs with
  | nil => exact .nil
  | cons v vs ih =>
    have hv := h v (by simp)
    have := Pieces.line (text_layout_self v hv.1) (text_oneLine v hv.1).1 hv.2 (ih fun w hw => h w (by simp [hw]))
    simpa [fileOf] using this

theorem fileOf_tokens (ev : Val → Res Val) (vs : List Val) (h : ∀ v ∈ vs, Readable v) (ws : List Val) :
    feedAll ev ⟨[], none, ws⟩ (tokensP (vs.map words)) = .ok ⟨[], none, ws ++ vs.map erase⟩ := by
  induction vs generalizing ws with
  | nil => simp [tokensP, feedAll]
  | cons v vs ih =>
    have e : tokensP ((v :: vs).map words) = tokensOf (words v) ++ tokensP (vs.map words) := by simp [tokensP]
    rw [e, feedAll_append, (feed_words ev v (h v (by simp))).1]
    have := ih (fun w hw => h w (by simp [hw])) (ws ++ [v.erase])
    simpa [complete, applyPre] using this

/-- **C36.** Values printed one per line read back, by successive calls of `read` on the file, as the same values in the same order, then
the end of the file. Missing for the full statement: lines of more than 1023 bytes (`C36_read_counterexample`). -/
theorem C36_read_partial (ev : Val → Res Val) (vs : List Val) (h : ∀ v ∈ vs, Readable v ∧ (text v).length ≤ 1022) (k n : Nat)
    (hn : vs.length < n) :
    readMany ev n k ⟨fileOf vs, []⟩ = .ok (((vs.map erase).map some ++ List.replicate k none).take k) := by
  refine C45_order ev k (fileOf_pieces vs h) (by simpa using hn) ?_
  have := fileOf_tokens ev vs (fun v hv => (h v hv).1) []
  simpa [PSt.init] using this

example : ∀ v ∈ [cons (num 1) (chr 10), ofSym (Sym.ofBytes [97])], Readable v ∧ (text v).length ≤ 1022 := by
  intro v hv
  simp only [List.mem_cons, List.not_mem_nil, or_false] at hv
  rcases hv with rfl | rfl
  · exact ⟨⟨by simp only [Readable]; decide, by simp [Readable]⟩, by simp [text, textTail, leafText, decInt, decNat]⟩
  · exact ⟨⟨name_a, by decide⟩, by simp [text, leafText]; decide⟩

/-! ### Long lines -/

/-- 510 times `1` with a blank. -/
private def ones (k : Nat) : List UInt8 := (List.replicate k [49, 32]).flatten

private theorem ones_layout (k : Nat) {ws : List (List UInt8 × Rule)} {t : List UInt8} (h : Layout ws t) :
    Layout (List.replicate k ([49], .number) ++ ws) (ones k ++ t) := by
  induction k with
  | zero => simpa [ones] using h
  | succ k ih =>
    have w : Word [49] .number := ⟨by decide, by simp, by simp, by simp⟩
    have := Layout.word w (.inr (delim_space _)) (.sep (.space (b := 32) (by decide)) ih)
    simpa [ones, List.replicate_succ] using this

private theorem ones_oneLine (k : Nat) : OneLine (ones k) := by
  intro x hx
  simp only [ones, List.mem_flatten, List.mem_replicate] at hx
  obtain ⟨l, ⟨_, rfl⟩, hx⟩ := hx
  simp only [List.mem_cons, List.not_mem_nil, or_false] at hx
  rcases hx with rfl | rfl <;> decide

private theorem ones_tokens (ev : Val → Res Val) (k : Nat) (xs : List Val) (hx : xs ≠ []) (ts : List Token) :
    feedAll ev ⟨[⟨some (listTo xs nil), none, none⟩], none, []⟩ (List.replicate k (.num 1) ++ ts) =
      feedAll ev ⟨[⟨some (listTo (xs ++ List.replicate k (num 1)) nil), none, none⟩], none, []⟩ ts := by
  induction k generalizing xs with
  | zero => simp
  | succ k ih =>
    have c := complete_frame ev xs [] none [] (num 1)
    rw [if_neg hx] at c
    simp only [List.replicate_succ, List.cons_append, feedAll, feed, c, Res.ok_bind]
    rw [ih _ (by simp)]
    simp

private theorem textTail_ones (k : Nat) (e : Val) :
    textTail (listTo (List.replicate k (num 1)) e) = (List.replicate k [32, 49]).flatten ++ textTail e := by
  induction k with
  | zero => simp [listTo]
  | succ k ih =>
    simp only [List.replicate_succ, listTo, List.foldr_cons, textTail] at ih ⊢
    rw [ih]
    simp [text, leafText, decInt, decNat]

private theorem shift_ones (k : Nat) (l : List UInt8) : 49 :: ((List.replicate k [32, 49]).flatten ++ 32 :: l) = ones (k + 1) ++ l := by
  induction k with
  | zero => simp [ones]
  | succ k ih =>
    have : ones (k + 1 + 1) ++ l = 49 :: 32 :: (ones (k + 1) ++ l) := by simp [ones, List.replicate_succ]
    rw [this, ← ih]
    simp [List.replicate_succ]

/-- A list of ones and 1234. -/
def longList (k : Nat) : Val := listTo (List.replicate k (num 1)) (cons (num 1234) nil)

/-- What is read instead. -/
def splitList (k : Nat) : Val := listTo (List.replicate k (num 1)) (cons (num 12) (cons (num 34) nil))

private theorem longList_text (k : Nat) : text (longList (k + 1)) = [40] ++ (ones (k + 1) ++ [49, 50]) ++ [51, 52, 41] := by
  have e : longList (k + 1) = cons (num 1) (listTo (List.replicate k (num 1)) (cons (num 1234) nil)) := rfl
  rw [e]
  simp only [text, textTail_ones]
  have s := shift_ones k [49, 50, 51, 52, 41]
  have d : decInt 1234 = [49, 50, 51, 52] := by simp [decInt, decNat]
  have o : decInt 1 = [49] := by simp [decInt, decNat]
  simp only [textTail, text, leafText, d, o]
  simp only [List.append_assoc, List.cons_append, List.nil_append] at s ⊢
  rw [s]

private theorem ones_tokensOf (k : Nat) : tokensOf (List.replicate k ([49], .number)) = List.replicate k (.num 1) := by
  induction k with
  | zero => rfl
  | succ k ih =>
    simp only [tokensOf, List.replicate_succ, List.flatMap_cons] at ih ⊢
    rw [ih]; rfl

/-- The words of the first 1023 bytes, and of the rest. -/
private def splitWords (k : Nat) : List (List (List UInt8 × Rule)) :=
  [([40], .popen) :: (List.replicate k ([49], .number) ++ [([49, 50], .number)]), [([51, 52], .number), ([41], .pclose)]]

private theorem split_tokens (ev : Val → Res Val) (k : Nat) :
    feedAll ev .init (tokensP (splitWords (k + 1))) = .ok ⟨[], none, [splitList (k + 1)]⟩ := by
  have e : tokensP (splitWords (k + 1)) = .popen :: .num 1 :: (List.replicate k (.num 1) ++ [.num 12, .num 34, .pclose]) := by
    have a1 : tokensOf (([40], .popen) :: (List.replicate (k + 1) ([49], .number) ++ [([49, 50], .number)])) =
        .popen :: (List.replicate (k + 1) (.num 1) ++ [.num 12]) := by
      have := tokensOf_append (List.replicate (k + 1) ([49], .number)) [([49, 50], .number)]
      rw [ones_tokensOf] at this
      have e3 : tokensOf [([49, 50], .number)] = [.num 12] := by decide
      rw [e3] at this
      show Token.popen :: tokensOf _ = _
      rw [this]
    have a2 : tokensOf [([51, 52], .number), ([41], .pclose)] = [.num 34, .pclose] := by decide
    simp only [tokensP, splitWords, List.flatMap_cons, List.flatMap_nil, a1, a2, List.append_nil]
    simp [List.replicate_succ]
  rw [e]
  have c := complete_frame ev [] [] none [] (num 1)
  simp only [if_true] at c
  simp only [feedAll, feed, PSt.init, Res.ok_bind, c, List.nil_append]
  rw [ones_tokens ev k [num 1] (by simp)]
  have hx : [num 1] ++ List.replicate k (num 1) = List.replicate (k + 1) (num 1) := by simp [List.replicate_succ]
  rw [hx]
  have c1 := complete_frame ev (List.replicate (k + 1) (num 1)) [] none [] (num 12)
  rw [if_neg (by simp)] at c1
  have c2 := complete_frame ev (List.replicate (k + 1) (num 1) ++ [num 12]) [] none [] (num 34)
  rw [if_neg (by simp)] at c2
  simp only [feedAll, feed, c1, c2, Res.ok_bind, Frame.close]
  simp [complete, applyPre, splitList, listTo]

private theorem split_pieces (k : Nat) (hk : 2 * (k + 1) + 3 = 1023) :
    Pieces (splitWords (k + 1)) (fileOf [longList (k + 1)]) := by
  have h12 : Layout [([49, 50], .number)] [49, 50] := by
    have := Layout.word (w := [49, 50]) (r := .number) (t := []) ⟨by decide, by simp, by simp, by simp⟩ (.inr rfl) .nil
    simpa using this
  have h1 : Layout (([40], .popen) :: (List.replicate (k + 1) ([49], .number) ++ [([49, 50], .number)]))
      ([40] ++ (ones (k + 1) ++ [49, 50])) := .word .popen (.inl rfl) (ones_layout (k + 1) h12)
  have h2 : Layout [([51, 52], .number), ([41], .pclose)] [51, 52, 41] := by
    have h4 : Layout [([41], .pclose)] ([41] ++ []) := .word .pclose (.inl rfl) .nil
    exact .word (w := [51, 52]) (r := .number) ⟨by decide, by simp, by simp, by simp⟩ (.inr (by decide)) h4
  have one : OneLine [40] := by simp [OneLine]
  have l1 : OneLine ([40] ++ (ones (k + 1) ++ [49, 50])) :=
    one.append ((ones_oneLine (k + 1)).append (by simp [OneLine]))
  have l2 : OneLine [51, 52, 41] := by simp [OneLine]
  have len : ([40] ++ (ones (k + 1) ++ [49, 50])).length = 1023 := by simp [ones]; omega
  have hp := Pieces.full h1 l1 len (Pieces.line h2 l2 (by simp) .nil)
  have hfile : fileOf [longList (k + 1)] = [40] ++ (ones (k + 1) ++ [49, 50]) ++ ([51, 52, 41] ++ 10 :: []) := by
    simp only [fileOf, List.flatMap_cons, List.flatMap_nil, longList_text]; simp
  rw [hfile]
  exact hp

/-- **C36.** On lines of more than 1023 bytes the round trip fails: `lisp_read` takes them in pieces and tells the lexer that every piece is the
last one (`lib/core/read.c:68`), so that a number at the end of a piece is cut in two. The list of 510 ones and 1234 reads
back with 12 and 34 at its end. -/
theorem C36_read_counterexample (ev : Val → Res Val) (n : Nat) (hn : 2 < n) :
    Readable (longList 510) ∧ readMany ev n 2 ⟨fileOf [longList 510], []⟩ = .ok [some (splitList 510), none] ∧
    (longList 510).equ (splitList 510) = false := by
  have hR : ∀ k, Readable (longList k) := by
    intro k
    induction k with
    | zero => exact ⟨(by decide : inI64 1234 = true), trivial⟩
    | succ k ih => exact ⟨(by decide : inI64 1 = true), ih⟩
  have hE : ∀ k, (longList k).equ (splitList k) = false := by
    intro k
    induction k with
    | zero => decide
    | succ k ih =>
      show ((num 1).equ (num 1) && (longList k).equ (splitList k)) = false
      rw [ih]; simp
  refine ⟨hR _, ?_, hE _⟩
  have hp := split_pieces 509 (by omega)
  have ht := split_tokens ev 509
  have := C45_order ev 2 hp (n := n) hn ht
  rw [this]
  rfl

/-! ## C45: the stacks of channels -/

/-- What any piece of a program leaves as it was: the output stack, the input stack below its top, and the identity of the top. What it writes
goes to the top of the output stack or to files opened meanwhile. -/
structure Kept (s s' : IOSt) : Prop where
  och : s'.och = s.och
  tail : s'.ich.tail = s.ich.tail
  handles : s'.ich.map (·.1) = s.ich.map (·.1)
  next : s.next ≤ s'.next
  log : ∃ l, s'.log = s.log ++ l ∧ ∀ e ∈ l, s.och.head? = some e.1 ∨ s.next ≤ e.1

theorem Kept.refl (s : IOSt) : Kept s s := ⟨rfl, rfl, rfl, Nat.le_refl _, [], by simp, by simp⟩

theorem Kept.trans {s s' s'' : IOSt} (h : Kept s s') (h' : Kept s' s'') : Kept s s'' := by
  obtain ⟨l, hl, hm⟩ := h.log
  obtain ⟨l', hl', hm'⟩ := h'.log
  refine ⟨h'.och.trans h.och, h'.tail.trans h.tail, h'.handles.trans h.handles, Nat.le_trans h.next h'.next,
    l ++ l', by rw [hl', hl, List.append_assoc], ?_⟩
  intro e he
  rcases List.mem_append.1 he with he | he
  · exact hm e he
  · rcases hm' e he with h1 | h1
    · rw [h.och] at h1; exact .inl h1
    · exact .inr (Nat.le_trans h.next h1)

theorem readTop_kept {ev : Val → Res Val} {n : Nat} {s s' : IOSt} {v : Option Val} (h : readTop ev n s = .ok (v, s')) :
    Kept s s' := by
  obtain ⟨ich, och, next, log⟩ := s
  cases ich with
  | nil => simp [readTop] at h
  | cons c cs =>
    obtain ⟨hd, c⟩ := c
    simp only [readTop] at h
    obtain ⟨⟨w, c'⟩, _, h⟩ := Res.bind_eq_ok.1 h
    cases h
    exact ⟨rfl, rfl, rfl, Nat.le_refl _, [], by simp, by simp⟩

/-- Behind a pushed input channel everything is kept, the previous channel included. -/
theorem kept_in {f : List UInt8} {s s' : IOSt} (h : Kept (pushIn f s) s') :
    Kept s (popIn s') ∧ (popIn s').ich = s.ich := by
  have e : (popIn s').ich = s.ich := h.tail
  obtain ⟨l, hl, hm⟩ := h.log
  refine ⟨⟨h.och, by rw [e], by rw [e], Nat.le_trans (Nat.le_succ _) h.next, l, hl, ?_⟩, e⟩
  intro x hx
  rcases hm x hx with h1 | h1
  · exact .inl h1
  · exact .inr (Nat.le_trans (Nat.le_succ _) h1)

theorem kept_out {s s' : IOSt} (h : Kept (pushOut s) s') :
    Kept s (popOut s') ∧ ∃ l, (popOut s').log = s.log ++ l ∧ ∀ e ∈ l, s.next ≤ e.1 := by
  obtain ⟨l, hl, hm⟩ := h.log
  have hf : ∀ e ∈ l, s.next ≤ e.1 := by
    intro x hx
    rcases hm x hx with h1 | h1
    · simp only [pushOut, List.head?_cons, Option.some.injEq] at h1; omega
    · exact Nat.le_trans (Nat.le_succ _) h1
  refine ⟨⟨?_, h.tail, h.handles, Nat.le_trans (Nat.le_succ _) h.next, l, hl, fun e he => .inr (hf e he)⟩, l, hl, hf⟩
  show s'.och.tail = s.och
  rw [h.och]; rfl

theorem run_kept (ev : Val → Res Val) (n : Nat) :
    (∀ a s s', run ev n a s = .ok s' → Kept s s') ∧ (∀ k s s', loadLoop ev n k s = .ok s' → Kept s s') := by
  induction n with
  | zero => exact ⟨fun a s s' h => by simp [run] at h, fun k s s' h => by simp [loadLoop] at h⟩
  | succ n ih =>
    obtain ⟨ihr, ihl⟩ := ih
    refine ⟨?_, ?_⟩
    · intro a s s' h
      cases a with
      | skip => simp only [run] at h; cases h; exact .refl _
      | seq a b =>
        simp only [run] at h
        obtain ⟨s1, h1, h2⟩ := Res.bind_eq_ok.1 h
        exact (ihr _ _ _ h1).trans (ihr _ _ _ h2)
      | read k =>
        simp only [run] at h
        obtain ⟨⟨v, s1⟩, h1, h2⟩ := Res.bind_eq_ok.1 h
        exact (readTop_kept h1).trans (ihr _ _ _ h2)
      | readline k =>
        obtain ⟨ich, och, next, log⟩ := s
        cases ich with
        | nil => simp [run] at h
        | cons c cs =>
          obtain ⟨hd, c⟩ := c
          simp only [run] at h
          refine Kept.trans ?_ (ihr _ _ _ h)
          exact ⟨rfl, rfl, rfl, Nat.le_refl _, [], by simp, by simp⟩
      | print bytes =>
        obtain ⟨ich, och, next, log⟩ := s
        cases och with
        | nil => simp [run] at h
        | cons o os =>
          simp only [run] at h
          cases h
          exact ⟨rfl, rfl, rfl, Nat.le_refl _, [(o, bytes)], rfl, by simp⟩
      | inn file body =>
        cases file with
        | none => simp only [run] at h; cases h; exact .refl _
        | some f =>
          simp only [run] at h
          obtain ⟨s1, h1, h2⟩ := Res.bind_eq_ok.1 h
          cases h2
          exact (kept_in (ihr _ _ _ h1)).1
      | out ok body =>
        cases ok with
        | false => simp only [run] at h; cases h; exact .refl _
        | true =>
          simp only [run] at h
          obtain ⟨s1, h1, h2⟩ := Res.bind_eq_ok.1 h
          cases h2
          exact (kept_out (ihr _ _ _ h1)).1
      | load file k =>
        cases file with
        | none => simp only [run] at h; cases h; exact .refl _
        | some f =>
          simp only [run] at h
          obtain ⟨s1, h1, h2⟩ := Res.bind_eq_ok.1 h
          cases h2
          exact (kept_in (ihl _ _ _ h1)).1
    · intro k s s' h
      simp only [loadLoop] at h
      obtain ⟨⟨v, s1⟩, h1, h2⟩ := Res.bind_eq_ok.1 h
      have hk := readTop_kept h1
      cases v with
      | none => cases h2; exact hk
      | some v =>
        obtain ⟨s2, h3, h4⟩ := Res.bind_eq_ok.1 h2
        exact hk.trans ((ihr _ _ _ h3).trans (ihl _ _ _ h4))

/-- **C45.** For every program, however nested: both stacks have the same channels afterwards as before, and the input channels below the
top have not been read from. -/
theorem C45_stack (ev : Val → Res Val) (n : Nat) (a : Act) (s s' : IOSt) (h : run ev n a s = .ok s') :
    s'.och = s.och ∧ s'.ich.map (·.1) = s.ich.map (·.1) ∧ s'.ich.tail = s.ich.tail :=
  have k := (run_kept ev n).1 a s s' h
  ⟨k.och, k.handles, k.tail⟩

/-- **C45.** `in` restores the input channel exactly, with its position and its buffered values, whatever its body does. -/
theorem C45_in (ev : Val → Res Val) (n : Nat) (f : Option (List UInt8)) (body : Act) (s s' : IOSt)
    (h : run ev n (.inn f body) s = .ok s') : s'.ich = s.ich ∧ s'.och = s.och := by
  refine ⟨?_, ((run_kept ev n).1 _ _ _ h).och⟩
  cases n with
  | zero => simp [run] at h
  | succ n =>
    cases f with
    | none => simp only [run] at h; cases h; rfl
    | some f =>
      simp only [run] at h
      obtain ⟨s1, h1, h2⟩ := Res.bind_eq_ok.1 h
      cases h2
      exact (kept_in ((run_kept ev n).1 _ _ _ h1)).2

/-- **C45.** So does `load`, whatever the script does. -/
theorem C45_load (ev : Val → Res Val) (n : Nat) (f : Option (List UInt8)) (k : Val → Act) (s s' : IOSt)
    (h : run ev n (.load f k) s = .ok s') : s'.ich = s.ich ∧ s'.och = s.och := by
  refine ⟨?_, ((run_kept ev n).1 _ _ _ h).och⟩
  cases n with
  | zero => simp [run] at h
  | succ n =>
    cases f with
    | none => simp only [run] at h; cases h; rfl
    | some f =>
      simp only [run] at h
      obtain ⟨s1, h1, h2⟩ := Res.bind_eq_ok.1 h
      cases h2
      exact (kept_in ((run_kept ev n).2 _ _ _ h1)).2

/-- **C45.** `out` restores the output channel, and nothing that its body prints reaches a channel that was open before. -/
theorem C45_out (ev : Val → Res Val) (n : Nat) (body : Act) (s s' : IOSt) (hw : ∀ h ∈ s.och, h < s.next)
    (h : run ev n (.out true body) s = .ok s') :
    s'.och = s.och ∧ ∃ l, s'.log = s.log ++ l ∧ ∀ e ∈ l, e.1 ∉ s.och := by
  refine ⟨((run_kept ev n).1 _ _ _ h).och, ?_⟩
  cases n with
  | zero => simp [run] at h
  | succ n =>
    simp only [run] at h
    obtain ⟨s1, h1, h2⟩ := Res.bind_eq_ok.1 h
    cases h2
    obtain ⟨l, hl, hf⟩ := (kept_out ((run_kept ev n).1 _ _ _ h1)).2
    refine ⟨l, hl, fun e he hm => ?_⟩
    have := hw _ hm
    have := hf e he
    omega

/-- A script with a nested `out` and `in`: it prints what the inner files deliver to a file. -/
example : ∃ s', run .ok 20 (.load (some [49, 32, 50, 10]) fun v => .out true (.inn (some [51, 10]) (.read fun w =>
      .print (text v ++ (w.map text).getD []))))
    ⟨[(0, ⟨[57, 10], []⟩)], [1], 2, []⟩ = .ok s' ∧ s'.ich = [(0, ⟨[57, 10], []⟩)] ∧ s'.och = [1] ∧
    s'.log = [(3, [49, 51]), (5, [50, 51])] := by
  refine ⟨_, rfl, ?_, ?_, ?_⟩ <;> decide_cbv

/-! ## C46: `readline` -/

/-- The results of successive calls of `readline`. -/
def linesMany : Nat → IChan → List Val
  | 0, _ => []
  | k + 1, c => (natReadline c).1 :: linesMany k (natReadline c).2

/-- A file of lines with their newlines. -/
def linesFile (ls : List (List UInt8)) : List UInt8 := ls.flatMap fun l => l ++ [10]

theorem readline_line (u t : List UInt8) (buf : List Val) (hu : ∀ x ∈ u, x ≠ 10) :
    natReadline ⟨u ++ 10 :: t, buf⟩ = (strVal (makeString u u.length), ⟨t, buf⟩) := by
  simp only [natReadline]
  rw [if_neg (by simp), takeLine_line hu (by simp)]
  simp [makeString]

theorem readline_eof (buf : List Val) : natReadline ⟨[], buf⟩ = (ofSym sEof, ⟨[], buf⟩) := rfl

/-- `readline` on any file whose lines all end with a newline: the lines in order, with their escapes processed, then `EOF` again and again. -/
theorem lines_all (k : Nat) (ls : List (List UInt8)) (buf : List Val) (h : ∀ l ∈ ls, ∀ x ∈ l, x ≠ 10) :
    linesMany k ⟨linesFile ls, buf⟩ =
      (ls.map (fun l => strVal (makeString l l.length)) ++ List.replicate k (ofSym sEof)).take k := by
  induction k generalizing ls with
  | zero => simp [linesMany]
  | succ k ih =>
    cases ls with
    | nil =>
      have := ih [] (by simp)
      simp only [linesFile, List.flatMap_nil, List.map_nil, List.nil_append] at this
      simp [linesMany, linesFile, readline_eof, this, List.replicate_succ]
    | cons l ls =>
      have e : linesFile (l :: ls) = l ++ 10 :: linesFile ls := by simp [linesFile]
      rw [linesMany, e, readline_line l _ buf (h l (by simp))]
      simp only
      rw [ih ls fun l hl => h l (by simp [hl])]
      have repl : ∀ l : List Val, (l ++ List.replicate (k + 1) (ofSym sEof)).take k = (l ++ List.replicate k (ofSym sEof)).take k := by
        intro l
        rw [List.take_append, List.take_append, List.take_replicate, List.take_replicate]
        congr 2; omega
      simp only [List.map_cons, List.cons_append, List.take_succ_cons, repl]

theorem makeString_plain (l : List UInt8) (h : ∀ x ∈ l, x ≠ 92) : makeString l l.length = l.map charOf := by
  have key : ∀ (cs : List Int) (res : List Int), (∀ c ∈ cs, c ≠ chBackslash) → processEscapes cs false res = res ++ cs := by
    intro cs
    induction cs with
    | nil => intro res _; simp [processEscapes]
    | cons c cs ih =>
      intro res hc
      have := hc c (by simp)
      simp only [processEscapes, this, if_false, Bool.false_eq_true]
      rw [ih _ fun x hx => hc x (by simp [hx])]
      simp
  rw [makeString, List.take_length, key]
  · simp
  · intro c hc
    obtain ⟨b, hb, rfl⟩ := List.mem_map.1 hc
    have := forall_byte (fun b => b == 92 || charOf b != chBackslash) (by decide +kernel) b
    have hb := h b hb
    simpa [hb] using this

/-- **C46.** On a file whose lines all end with a newline and contain no backslash, `readline` returns the successive lines without their
newline, then `EOF`. Missing for the full statement: see the two counterexamples. -/
theorem C46_lines_partial (k : Nat) (ls : List (List UInt8)) (buf : List Val) (h : ∀ l ∈ ls, ∀ x ∈ l, x ≠ 10 ∧ x ≠ 92) :
    linesMany k ⟨linesFile ls, buf⟩ =
      (ls.map (fun l => strVal (l.map charOf)) ++ List.replicate k (ofSym sEof)).take k := by
  rw [lines_all k ls buf fun l hl x hx => (h l hl x hx).1]
  congr 2
  refine List.map_congr_left fun l hl => ?_
  rw [makeString_plain l fun x hx => (h l hl x hx).2]

example : linesMany 3 ⟨ascii "ab\n\n".toList, []⟩ = [ofList [chr 97, chr 98], nil, ofSym sEof] := by decide +kernel

/-- **C46.** For every file: a last line without newline loses its last character. -/
theorem C46_last_line_counterexample (u : List UInt8) (b : UInt8) (buf : List Val) (hu : ∀ x ∈ u ++ [b], x ≠ 10) (hb : b ≠ 0) :
    natReadline ⟨u ++ [b], buf⟩ = (strVal (makeString u u.length), ⟨[], buf⟩) := by
  simp only [natReadline]
  rw [if_neg (by simp), takeLine_last hu (Nat.le_refl _)]
  simp [makeString, hb]

/-- **C46.** A backslash does not arrive: the line `a\b` is read as `ab`. -/
theorem C46_backslash_counterexample :
    (natReadline ⟨[97, 92, 98, 10], []⟩).1 = ofList [chr 97, chr 98] := by decide +kernel

end Lex
end Mnml
