import Verif.PropChan

/-!
# C71: source text with prefixes
-/

namespace Mnml
namespace Lex

open Val Print

/-! ## Expressions of the language -/

mutual
/-- An expression as it is written: a leaf or a list, with a prefix or without, or a string. -/
inductive Src where
  | leaf (p : Option Pre) (v : Val)
  | str (b : List UInt8)
  | list (p : Option Pre) (l : Items)
/-- What is written between parentheses; the last item may follow a dot. -/
inductive Items where
  | nil
  | dot (x : Src)
  | cons (x : Src) (l : Items)
end

/-- The character of a prefix. -/
def Pre.byte : Pre → UInt8
  | .quote => 39
  | .back => 96
  | .tilde => 126

/-- The rules for an open parenthesis, a name and a number with a prefix. -/
def openRule : Option Pre → Rule
  | none => .popen
  | some .quote => .qpopen
  | some .back => .bpopen
  | some .tilde => .tpopen
@[inherit_doc openRule] def preRule : Pre → Val → Rule
  | .quote, num _ => .qnumber
  | .back, num _ => .bnumber
  | .tilde, num _ => .tnumber
  | .quote, _ => .qsymbol
  | .back, _ => .bsymbol
  | .tilde, _ => .tsymbol

mutual
/-- The words of an expression. -/
def Src.words : Src → List (List UInt8 × Rule)
  | .leaf none v => [(leafText v, leafRule v)]
  | .leaf (some p) v => [(p.byte :: leafText v, preRule p v)]
  | .str b => [(34 :: (b ++ [34]), .string)]
  | .list p l => ((p.map Pre.byte).toList ++ [40], openRule p) :: (l.words ++ [([41], .pclose)])
@[inherit_doc Src.words] def Items.words : Items → List (List UInt8 × Rule)
  | .nil => []
  | .dot x => ([46], .dot) :: x.words
  | .cons x l => x.words ++ l.words
end

/-- What a prefix stands for. -/
inductive Prefixed (ev : Val → Res Val) : Option Pre → Val → Val → Prop where
  | none {v : Val} : Prefixed ev .none v v
  | quote {v : Val} : Prefixed ev (some .quote) v (Val.cons (ofSym sQuote) v)
  | back {v r : Val} (h : ev v = .ok r) : Prefixed ev (some .back) v r

mutual
/-- The value for which an expression stands: `'` makes a quoted expression, `` ` `` the value of the expression when it is read. -/
inductive Means (ev : Val → Res Val) : Src → Val → Prop where
  | leaf {p : Option Pre} {v r : Val} (hr : Readable v) (hp : v.isPair = false) (hn : p ≠ none → (∃ t s, v = sym t s) ∨ ∃ n, v = num n ∧ 0 ≤ n)
      (h : Prefixed ev p v.erase r) : Means ev (.leaf p v) r
  | str {b : List UInt8} (h : ∀ x ∈ b, x ≠ 0 ∧ x ≠ 34 ∧ x ≠ 92) : Means ev (.str b) (strVal (b.map charOf))
  | list {p : Option Pre} {l : Items} {v r : Val} (hl : MeansAll ev [] l v) (h : Prefixed ev p v r) : Means ev (.list p l) r
/-- The list that begins with the values `xs` and goes on with what is written in `l`; `~` puts the elements of the value of a list in place, except
at the beginning. -/
inductive MeansAll (ev : Val → Res Val) : List Val → Items → Val → Prop where
  | nil {xs : List Val} : MeansAll ev xs .nil (ofList xs)
  | dot {xs : List Val} {x : Src} {v : Val} (h0 : xs ≠ []) (h : Means ev x v) : MeansAll ev xs (.dot x) (xs.foldr Val.cons v)
  | cons {xs : List Val} {x : Src} {l : Items} {v w : Val} (h : Means ev x v) (ht : MeansAll ev (xs ++ [v]) l w) : MeansAll ev xs (.cons x l) w
  | splice {xs ys : List Val} {k l : Items} {v w : Val} (h0 : xs ≠ []) (hk : MeansAll ev [] k v) (h : ev v = .ok (ofList ys))
      (ht : MeansAll ev (xs ++ ys) l w) : MeansAll ev xs (.cons (.list (some .tilde) k) l) w
end

/-! ## Words with prefixes -/

theorem decNat_not_symbol (n : Nat) : isSymbol (decNat n) = false := by
  have h := decNat_digits n
  cases e : decNat n with
  | nil => exact absurd e h.1
  | cons b w =>
    have hb := h.2.1 b (by rw [e]; simp)
    have key : ((List.range 256).all fun n => !isDigit (UInt8.ofNat n) || !(isAlpha (UInt8.ofNat n) || isMark (UInt8.ofNat n))) = true := by
      decide +kernel
    rw [List.all_eq_true] at key
    have := key b.toNat (List.mem_range.2 b.toNat_lt)
    simp only [UInt8.ofNat_toNat, hb, Bool.not_true, Bool.false_or, Bool.not_eq_true'] at this
    simp [isSymbol, this]

theorem leaf_pre {p : Pre} {v : Val} (hr : Readable v) (hn : (∃ t s, v = sym t s) ∨ ∃ n, v = num n ∧ 0 ≤ n) :
    accept (p.byte :: leafText v) = some (preRule p v) := by
  have h1 : ∀ w : List UInt8, isChar (p.byte :: w) = false := by
    intro w
    cases p <;> (rw [isChar.eq_def]; simp [Pre.byte])
  have h2 : ∀ w, isSymbol (p.byte :: w) = false := by
    intro w
    have : (isAlpha p.byte || isMark p.byte) = false := by cases p <;> decide
    simp [isSymbol, this]
  have h3 : ∀ w, isNumber (p.byte :: w) = false := by
    intro w
    have : isDigit p.byte = false := by cases p <;> decide
    have h45 : p.byte ≠ 45 := by cases p <;> decide
    simp [isNumber, h45, isDigits, this]
  have h4 : ∀ w, isString (p.byte :: w) = false := by
    intro w
    have : p.byte ≠ 34 := by cases p <;> decide
    simp [isString, this]
  rcases hn with ⟨t, s, rfl⟩ | ⟨n, rfl, hn⟩
  · have hs : isSymbol (leafText (sym t s)) = true := hr.1.model.1
    generalize leafText (sym t s) = w at *
    have h40 : (w == [40]) = false := by
      rw [beq_eq_false_iff_ne]; rintro rfl; exact absurd hs (by decide)
    simp only [accept, rules, Rule.accepts, List.find?, prefixed, h1, h2, h3, h4, hs]
    cases p <;> simp [Pre.byte, preRule, h40]
  · have hs : isNumber (leafText (num n)) = true := decInt_isNumber n
    have hf : isSymbol (leafText (num n)) = false := by
      have hd : leafText (num n) = decNat n.natAbs := by simp only [leafText, decInt]; rw [if_neg (by omega)]
      rw [hd, decNat_not_symbol]
    generalize leafText (num n) = w at *
    have h40 : (w == [40]) = false := by
      rw [beq_eq_false_iff_ne]; rintro rfl; exact absurd hs (by decide)
    simp only [accept, rules, Rule.accepts, List.find?, prefixed, h1, h2, h3, h4, hs, hf]
    cases p <;> simp [Pre.byte, preRule, h40]

theorem str_rest {b : List UInt8} (h : ∀ x ∈ b, x ≠ 0 ∧ x ≠ 34 ∧ x ≠ 92) (q : Bool) : isStrRest q (b ++ [34]) = true := by
  induction b generalizing q with
  | nil => simp [isStrRest]
  | cons x b ih =>
    have hx := h x (by simp)
    simp only [List.cons_append, isStrRest, beq_iff_eq, hx.2.1, if_false]
    exact ih (fun y hy => h y (by simp [hy])) _

theorem str_word {b : List UInt8} (h : ∀ x ∈ b, x ≠ 0 ∧ x ≠ 34 ∧ x ≠ 92) : Word (34 :: (b ++ [34])) .string := by
  refine ⟨?_, by simp, by simp, fun _ => ?_⟩
  · have h1 : isString (34 :: (b ++ [34])) = true := by simp [isString, str_rest h]
    have h2 : isNumber (34 :: (b ++ [34])) = false := by
      simp [isNumber, isDigits]; intro h; exact absurd h (by decide)
    have h3 : isChar (34 :: (b ++ [34])) = false := by rw [isChar.eq_def]; simp
    simp [accept, rules, Rule.accepts, h1, h2, h3]
  · have e : (34 :: (b ++ [34])).dropLast = 34 :: b := by
      rw [← List.cons_append, List.dropLast_concat]
    rw [plainEnd, e]
    intro hl
    have := List.mem_of_getLast? hl
    rcases List.mem_cons.1 this with h' | h'
    · cases h'
    · exact (h 92 h').2.2 rfl

/-! ## Parsing -/

/-- The parser with a prefix that waits for its item. -/
def PSt.withPre (st : PSt) (p : Option Pre) : PSt :=
  match st.frames with
  | [] => ⟨[], p, st.vals⟩
  | f :: fs => ⟨⟨f.items, f.dot, p⟩ :: fs, st.pre, st.vals⟩

/-- The prefix that waits. -/
def PSt.wait (st : PSt) : Option Pre :=
  match st.frames with
  | [] => st.pre
  | f :: _ => f.pre

/-- The tokens of a prefix. -/
def preTokens : Option Pre → List Token
  | none => []
  | some .quote => [.quote]
  | some .back => [.backt]
  | some .tilde => [.tilde]

theorem feed_pre (ev : Val → Res Val) {st : PSt} (h : st.wait = none) (p : Option Pre) : feedAll ev st (preTokens p) = .ok (st.withPre p) := by
  obtain ⟨fs, q, vs⟩ := st
  cases fs with
  | nil =>
    cases h
    cases p with
    | none => rfl
    | some p => cases p <;> rfl
  | cons f fs =>
    obtain ⟨i, d, q'⟩ := f
    cases h
    cases p with
    | none => rfl
    | some p => cases p <;> rfl

theorem complete_pre {ev : Val → Res Val} {st : PSt} {p : Option Pre} {v r : Val} (h : st.wait = none) (hp : Prefixed ev p v r) :
    complete ev (st.withPre p) v = complete ev st r := by
  obtain ⟨fs, q, vs⟩ := st
  cases fs with
  | nil =>
    cases h
    cases hp with
    | none => rfl
    | quote => rfl
    | back h => simp [complete, PSt.withPre, applyPre, h]
  | cons f fs =>
    obtain ⟨i, d, q'⟩ := f
    cases h
    cases hp with
    | none => rfl
    | quote =>
      cases d with
      | none => cases i <;> rfl
      | some d => cases d <;> rfl
    | back h =>
      cases d with
      | none => cases i <;> simp [complete, PSt.withPre, Frame.add, applyPre, h]
      | some d => cases d <;> simp [complete, PSt.withPre, Frame.add, applyPre, h]

/-- The items of an open list. -/
def itemsOf (xs : List Val) : Option Val := if xs = [] then none else some (listTo xs nil)

theorem listTo_ofList (xs : List Val) : listTo xs nil = ofList xs := by
  induction xs with
  | nil => rfl
  | cons x xs ih => simp only [listTo, List.foldr_cons] at ih ⊢; rw [ih]; rfl

theorem listTo_append (xs ys : List Val) : listTo xs (ofList ys) = listTo (xs ++ ys) nil := by
  rw [← listTo_ofList]; simp [listTo]

theorem tokens_open (p : Option Pre) (w : List UInt8) : (openRule p).tokens w = preTokens p ++ [.popen] := by
  cases p with
  | none => rfl
  | some p => cases p <;> rfl

theorem tokens_pre {p : Pre} {v : Val} (hr : Readable v) (hn : (∃ t s, v = sym t s) ∨ ∃ n, v = num n ∧ 0 ≤ n) (ht : p ≠ .tilde) :
    (preRule p v).tokens (p.byte :: leafText v) = preTokens (some p) ++ [leafToken v] := by
  rcases hn with ⟨t, s, rfl⟩ | ⟨n, rfl, hn⟩
  · have : Sym.ofBytes (leafText (sym t s)) = s := hr.2.symm
    cases p with
    | quote => simp [preRule, Rule.tokens, preTokens, leafToken, this]
    | back => simp [preRule, Rule.tokens, preTokens, leafToken, this]
    | tilde => exact absurd rfl ht
  · have : strtoll (leafText (num n)) = n := strtoll_decInt hr
    cases p with
    | quote => simp [preRule, Rule.tokens, preTokens, leafToken, this]
    | back => simp [preRule, Rule.tokens, preTokens, leafToken, this]
    | tilde => exact absurd rfl ht

/-- The tokens of an expression have the effect of its value. -/
theorem feed_means (ev : Val → Res Val) {s : Src} {v : Val} (h : Means ev s v) :
    ∀ st : PSt, st.wait = none → feedAll ev st (tokensOf s.words) = complete ev st v := by
  refine Means.rec (motive_1 := fun s v _ => ∀ st : PSt, st.wait = none → feedAll ev st (tokensOf s.words) = complete ev st v)
    (motive_2 := fun xs l v _ => ∀ (fs : List Frame) (p : Option Pre) (vs : List Val),
      feedAll ev ⟨⟨itemsOf xs, none, none⟩ :: fs, p, vs⟩ (tokensOf l.words ++ [.pclose]) = complete ev ⟨fs, p, vs⟩ v) ?_ ?_ ?_ ?_ ?_ ?_ ?_ h
  · intro p v r hr hp hn h st hw
    cases p with
    | none =>
      cases h
      simp only [Src.words, tokensOf_leaf hr hp, feedAll, feed_leaf ev _ hp, Res.bind_ok]
    | some p =>
      have ht : p ≠ .tilde := by rintro rfl; cases h
      have e : tokensOf (Src.words (.leaf (some p) v)) = preTokens (some p) ++ [leafToken v] := by
        simp [Src.words, tokensOf, tokens_pre hr (hn (by simp)) ht]
      rw [e, feedAll_append, feed_pre ev hw, Res.ok_bind]
      simp only [feedAll, feed_leaf ev _ hp, Res.bind_ok, complete_pre hw h]
  · intro b hb st hw
    have e1 : stringBody (34 :: (b ++ [34])) = b := by simp [stringBody]
    have e2 : b.takeWhile (· ≠ 0) = b := takeWhile_all fun x hx => (hb x hx).1
    have e3 := makeString_plain b fun x hx => (hb x hx).2.2
    simp only [Src.words, tokensOf, List.flatMap_cons, List.flatMap_nil, Rule.tokens, List.append_nil, feedAll, feed, e1, e2, e3, Res.bind_ok]
  · intro p l v r hl h ih st hw
    have e : tokensOf (Src.words (.list p l)) = preTokens p ++ (.popen :: (tokensOf l.words ++ [.pclose])) := by
      have tc : Rule.pclose.tokens [41] = [.pclose] := rfl
      simp [Src.words, tokensOf, tokens_open, tc]
    rw [e, feedAll_append, feed_pre ev hw, Res.ok_bind, feedAll]
    simp only [feed, Res.ok_bind]
    have := ih (st.withPre p).frames (st.withPre p).pre (st.withPre p).vals
    simp only [itemsOf, if_true] at this
    rw [this, ← complete_pre hw h]
  · intro xs fs p vs
    by_cases hx : xs = []
    · subst hx; simp [Items.words, tokensOf, feedAll, feed, itemsOf, Frame.close, ofList]
    · simp [Items.words, tokensOf, feedAll, feed, itemsOf, hx, Frame.close, listTo_ofList]
  · intro xs x v h0 h ih fs p vs
    have e : tokensOf (Items.words (.dot x)) ++ [.pclose] = .dot :: (tokensOf x.words ++ [.pclose]) := by
      simp [Items.words, tokensOf, Rule.tokens]
    rw [e, feedAll]
    simp only [itemsOf, if_neg h0, feed, Res.ok_bind]
    have c1 : complete ev ⟨⟨some (listTo xs nil), some none, none⟩ :: fs, p, vs⟩ v =
      .ok ⟨⟨some (listTo xs nil), some (some v), none⟩ :: fs, p, vs⟩ := rfl
    rw [feedAll_append, ih _ rfl, c1]
    simp only [Res.ok_bind, feedAll, feed, Frame.close, conc_listTo h0 v, Res.bind_ok]
    rfl
  · intro xs x l v w h ht ih iht fs p vs
    have e : tokensOf (Items.words (.cons x l)) ++ [.pclose] = tokensOf x.words ++ (tokensOf l.words ++ [.pclose]) := by
      simp [Items.words, tokensOf]
    rw [e, feedAll_append, ih _ rfl]
    have c := complete_frame ev xs fs p vs v
    have i := iht fs p vs
    simp only [itemsOf, List.append_eq_nil_iff, List.cons_ne_self, and_false, if_false] at i
    rw [itemsOf, c, Res.ok_bind]
    simpa using i
  · intro xs ys k l v w h0 hk h ht ihk iht fs p vs
    have e : tokensOf (Items.words (.cons (.list (some .tilde) k) l)) ++ [.pclose] =
        .tilde :: .popen :: ((tokensOf k.words ++ [.pclose]) ++ (tokensOf l.words ++ [.pclose])) := by
      simp [Items.words, Src.words, tokensOf, openRule, Rule.tokens]
    rw [e]
    simp only [feedAll, feed, setPre, Option.isNone_none, if_true, Res.ok_bind]
    have i := ihk (⟨itemsOf xs, none, some .tilde⟩ :: fs) p vs
    simp only [itemsOf, if_true] at i
    rw [feedAll_append]
    simp only [itemsOf]
    rw [i]
    have j := iht fs p vs
    have hne : xs ++ ys ≠ [] := by simp [h0]
    simp only [itemsOf, if_neg hne] at j
    simp only [complete, Frame.add, if_neg h0, h, Res.ok_bind, conc_listTo h0, listTo_append]
    exact j

/-! ## The text of an expression -/

mutual
/-- One way to write an expression: a blank before every item. -/
def Src.text : Src → List UInt8
  | .leaf none v => leafText v
  | .leaf (some p) v => p.byte :: leafText v
  | .str b => 34 :: (b ++ [34])
  | .list p l => (p.map Pre.byte).toList ++ [40] ++ l.text ++ [41]
@[inherit_doc Src.text] def Items.text : Items → List UInt8
  | .nil => []
  | .dot x => [32, 46, 32] ++ x.text
  | .cons x l => [32] ++ x.text ++ l.text
end

theorem open_word (p : Option Pre) : Word ((p.map Pre.byte).toList ++ [40]) (openRule p) ∧ (openRule p).closed = true := by
  cases p with
  | none => exact ⟨Word.popen, rfl⟩
  | some p => cases p <;> exact ⟨⟨by decide, by decide, by decide, by intro h; cases h⟩, rfl⟩

theorem items_delim (l : Items) {t : List UInt8} (ht : delim t = true) : delim (l.text ++ t) = true := by
  cases l with
  | nil => exact ht
  | dot x => exact delim_space _
  | cons x l => exact delim_space _

/-- The text of an expression is a layout of its words. -/
theorem src_layout {ev : Val → Res Val} {s : Src} {v : Val} (h : Means ev s v) :
    ∀ (ws : List (List UInt8 × Rule)) (t : List UInt8), delim t = true → Layout ws t → Layout (s.words ++ ws) (s.text ++ t) := by
  have sp : Sep [32] := .space (by decide)
  have nest : ∀ (p : Option Pre) (l : Items), (∀ (ws : List (List UInt8 × Rule)) (t : List UInt8), delim t = true → Layout ws t →
      Layout (l.words ++ ws) (l.text ++ t)) → ∀ (ws : List (List UInt8 × Rule)) (t : List UInt8), Layout ws t →
      Layout (Src.words (.list p l) ++ ws) (Src.text (.list p l) ++ t) := by
    intro p l ih ws t hl
    have h1 : Layout (([41], Rule.pclose) :: ws) (41 :: t) := .word (w := [41]) .pclose (.inl rfl) hl
    have h2 := Layout.word (open_word p).1 (.inl (open_word p).2) (ih _ _ (delim_close t) h1)
    simpa [Src.words, Src.text, List.append_assoc] using h2
  refine Means.rec (motive_1 := fun s v _ => ∀ (ws : List (List UInt8 × Rule)) (t : List UInt8), delim t = true → Layout ws t →
      Layout (s.words ++ ws) (s.text ++ t))
    (motive_2 := fun xs l v _ => ∀ (ws : List (List UInt8 × Rule)) (t : List UInt8), delim t = true → Layout ws t →
      Layout (l.words ++ ws) (l.text ++ t)) ?_ ?_ ?_ ?_ ?_ ?_ ?_ h
  · intro p v r hr hp hn h ws t hd hl
    cases p with
    | none => exact leaf_layout hr hp hd hl
    | some p =>
      refine .word (w := p.byte :: leafText v) ⟨leaf_pre hr (hn (by simp)), ?_, ?_, ?_⟩ (.inr hd) hl <;>
        (cases p <;> cases v <;> simp [preRule])
  · intro b hb ws t hd hl
    exact .word (str_word hb) (.inl rfl) hl
  · intro p l v r hl h ih ws t hd hl'
    exact nest p l ih _ _ hl'
  · intro xs ws t hd hl
    exact hl
  · intro xs x v h0 h ih ws t hd hl
    have := Layout.sep sp (.word .dot (.inr (delim_space _)) (.sep sp (ih _ _ hd hl)))
    simpa [Items.words, Items.text] using this
  · intro xs x l v w h ht ih iht ws t hd hl
    have := Layout.sep sp (ih _ _ (items_delim l hd) (iht _ _ hd hl))
    simpa [Items.words, Items.text, List.append_assoc] using this
  · intro xs ys k l v w h0 hk h ht ihk iht ws t hd hl
    have := Layout.sep sp (nest (some .tilde) k ihk _ _ (iht _ _ hd hl))
    simpa [Items.words, Items.text, List.append_assoc] using this

/-! ## C71 -/

theorem feed_program {ev : Val → Res Val} {ps : List (Src × Val)} (h : ∀ p ∈ ps, Means ev p.1 p.2) (vs : List Val) :
    feedAll ev ⟨[], none, vs⟩ (tokensOf (ps.flatMap fun p => p.1.words)) = .ok ⟨[], none, vs ++ ps.map Prod.snd⟩ := by
  induction ps generalizing vs with
  | nil => simp [tokensOf, feedAll]
  | cons p ps ih =>
    have e : tokensOf ((p :: ps).flatMap fun p => p.1.words) = tokensOf p.1.words ++ tokensOf (ps.flatMap fun p => p.1.words) := by
      simp [tokensOf]
    rw [e, feedAll_append, feed_means ev (h p (by simp)) _ rfl]
    have := ih (fun q hq => h q (by simp [hq])) (vs ++ [p.2])
    simpa [complete, applyPre] using this

/-- **C71.** A text that consists of expressions, with any separators between the words, reads as their values in their order. -/
theorem C71_text {ev : Val → Res Val} {ps : List (Src × Val)} {t : List UInt8} (h : ∀ p ∈ ps, Means ev p.1 p.2)
    (hl : Layout (ps.flatMap fun p => p.1.words) t) : readText ev t = .ok (ps.map Prod.snd) := by
  rw [readText, C37_layout hl]
  have := feed_program h []
  simp only [PSt.init, this, Res.ok_bind]
  simp

/-- **C71.** The same for one expression, written with blanks between the words. -/
theorem C71_expression {ev : Val → Res Val} {s : Src} {v : Val} (h : Means ev s v) : readText ev s.text = .ok [v] := by
  have := src_layout h [] [] rfl .nil
  exact C71_text (ps := [(s, v)]) (by simpa using h) (by simpa using this)

/-- **C71.** Successive reads of a file whose lines contain the expressions, each on as many lines as one likes, yield the values in their order. -/
theorem C71_file {ev : Val → Res Val} {ps : List (Src × Val)} {wss : List (List (List UInt8 × Rule))} {t : List UInt8} (k n : Nat)
    (h : ∀ p ∈ ps, Means ev p.1 p.2) (hp : Pieces wss t) (hw : wss.flatten = ps.flatMap fun p => p.1.words) (hn : wss.length < n) :
    readMany ev n k ⟨t, []⟩ = .ok (((ps.map Prod.snd).map some ++ List.replicate k none).take k) := by
  have e : tokensP wss = tokensOf (ps.flatMap fun p => p.1.words) := by
    rw [← hw]
    clear hw hp hn
    induction wss with
    | nil => rfl
    | cons ws wss ih => rw [List.flatten_cons, tokensOf_append, ← ih]; simp [tokensP]
  refine C45_order ev k hp hn ?_
  have := feed_program h []
  rw [e]
  simpa [PSt.init] using this

/-- **C71.** The conditions on prefixes are needed: `'T`, `'NIL` and `'_` are quoted names, not T, NIL and the wildcard; `'-5` is a quoted name, not a
number; `~x` in a list is the value of a variable with the name `~x`; `~5` is the value of 0; two prefixes and a quoted string are refused. -/
theorem C71_counterexample (ev : Val → Res Val) :
    readText ev (ascii ['\'', 'T']) = .ok [Val.cons (ofSym sQuote) (ofSym (Sym.ofBytes [84]))] ∧
    readText ev (ascii ['\'', 'N', 'I', 'L']) = .ok [Val.cons (ofSym sQuote) (ofSym (Sym.ofBytes [78, 73, 76]))] ∧
    readText ev (ascii ['\'', '_']) = .ok [Val.cons (ofSym sQuote) (ofSym (Sym.ofBytes [95]))] ∧
    readText ev (ascii ['\'', '-', '5']) = .ok [Val.cons (ofSym sQuote) (ofSym (Sym.ofBytes [45, 53]))] ∧
    (readText ev (ascii ['(', '1', ' ', '~', 'x', ')']) = ev (ofSym (Sym.ofBytes [126, 120])) >>= fun v => .ok [(ofList [num 1]).conc v]) ∧
    (readText ev (ascii ['(', '1', ' ', '~', '5', ')']) = ev (num 0) >>= fun v => .ok [(ofList [num 1]).conc v]) ∧
    readText ev (ascii ['\'', '\'', 'a']) = .unsupported ∧ readText ev (ascii ['\'', '"', 'a', '"']) = .unsupported := by
  refine ⟨?_, ?_, ?_, ?_, ?_, ?_, ?_, ?_⟩
  · rw [readText, show lex (ascii ['\'', 'T']) = ([.quote, .sym (Sym.ofBytes [84])], .done) by decide +kernel]; rfl
  · rw [readText, show lex (ascii ['\'', 'N', 'I', 'L']) = ([.quote, .sym (Sym.ofBytes [78, 73, 76])], .done) by decide +kernel]; rfl
  · rw [readText, show lex (ascii ['\'', '_']) = ([.quote, .sym (Sym.ofBytes [95])], .done) by decide +kernel]; rfl
  · rw [readText, show lex (ascii ['\'', '-', '5']) = ([.quote, .sym (Sym.ofBytes [45, 53])], .done) by decide +kernel]; rfl
  · rw [readText, show lex (ascii ['(', '1', ' ', '~', 'x', ')']) = ([.popen, .num 1, .tilde, .sym (Sym.ofBytes [126, 120]), .pclose], .done) by
      decide +kernel]
    simp only [feedAll, feed, complete, Frame.add, setPre, applyPre, PSt.init, Res.ok_bind, Option.isNone_none, if_true]
    cases ev (ofSym (Sym.ofBytes [126, 120])) <;> rfl
  · rw [readText, show lex (ascii ['(', '1', ' ', '~', '5', ')']) = ([.popen, .num 1, .tilde, .num 0, .pclose], .done) by decide +kernel]
    simp only [feedAll, feed, complete, Frame.add, setPre, applyPre, PSt.init, Res.ok_bind, Option.isNone_none, if_true]
    cases ev (num 0) <;> rfl
  · rw [readText, show lex (ascii ['\'', '\'', 'a']) = ([], .stuck) by decide +kernel]
  · rw [readText, show lex (ascii ['\'', '"', 'a', '"']) = ([], .stuck) by decide +kernel]

/-! ### Examples -/

/-- `(a ~(3) '4 "b" . '(`5))` where everything evaluates to `(1 2)`, i.e. `(a 1 2 (quote . 4) "b" quote (1 2))`. -/
example : Means (fun _ => .ok (ofList [num 1, num 2]))
    (.list none (.cons (.leaf none (ofSym (Sym.ofBytes [97]))) (.cons (.list (some .tilde) (.cons (.leaf none (num 3)) .nil))
      (.cons (.leaf (some .quote) (num 4)) (.cons (.str [98]) (.dot (.list (some .quote) (.cons (.leaf (some .back) (num 5)) .nil))))))))
    (listTo [ofSym (Sym.ofBytes [97]), num 1, num 2, Val.cons (ofSym sQuote) (num 4), strVal [98]]
      (Val.cons (ofSym sQuote) (ofList [ofList [num 1, num 2]]))) := by
  have n3 : Readable (num 3) := by simp only [Readable]; decide
  have n4 : Readable (num 4) := by simp only [Readable]; decide
  have n5 : Readable (num 5) := by simp only [Readable]; decide
  refine .list (.cons (.leaf ⟨name_a, by decide⟩ rfl (by simp) .none) (.splice (ys := [num 1, num 2]) (by simp)
    (.cons (.leaf n3 rfl (by simp) .none) .nil) rfl (.cons (.leaf n4 rfl (fun _ => .inr ⟨4, rfl, by omega⟩) .quote)
      (.cons (.str (by simp)) (.dot (by simp) (.list (.cons (.leaf n5 rfl (fun _ => .inr ⟨5, rfl, by omega⟩) (.back rfl)) .nil) .quote)))))) .none

/-- The hypotheses of `C71_file`: `'(`, newline, `)` on two lines. -/
example : Pieces [[([39, 40], .qpopen)], [([41], .pclose)]] [39, 40, 10, 41] ∧
    [[([39, 40], Rule.qpopen)], [([41], .pclose)]].flatten = [(Src.list (some .quote) .nil, Val.cons (ofSym sQuote) nil)].flatMap fun p => p.1.words :=
  ⟨.line (u := [39, 40]) (.word (w := [39, 40]) ⟨by decide, by simp, by simp, by simp⟩ (.inl rfl) .nil) (by simp [OneLine]) (by simp)
    (.last (.word (w := [41]) Word.pclose (.inl rfl) .nil) (by simp) (by simp [OneLine]) (by simp)), by
      simp [Src.words, Items.words, Pre.byte, openRule]⟩

end Lex
end Mnml
