import Verif.DateRepr.Model
import Verif.DateText.Lemmas
import Mathlib.Tactic.Linarith
import Mathlib.Data.List.TakeDrop
/-
Expressions are read as they are written.
-/
namespace Verif.DateRepr

open Verif.Dates (Ymd Delta)
open Verif.DateText (Str IsDigit value Clock OffsetOk DayOk dec decInt)

/-! ### Writing expressions -/

def keyText (k : Str) : Str := if k = [] then [] else k ++ ['=']

mutual
/-- The text of an expression. -/
def printExpr (quote : Str → Str) : Expr → Str
  | .int v => decInt v
  | .text s => quote s
  | .name p => p
  | .call p a => callText p (printArgs quote a)

/-- The text of arguments. -/
def printArgs (quote : Str → Str) : Args → Str
  | .nil => []
  | .cons k e .nil => keyText k ++ printExpr quote e
  | .cons k e (.cons k' e' rest) => keyText k ++ printExpr quote e ++ ',' :: ' ' :: printArgs quote (.cons k' e' rest)
end

def GoodName (p : Str) : Prop := p ≠ [] ∧ ∀ c ∈ p, nameChar c = true

mutual
def Expr.Good : Expr → Prop
  | .int _ => True
  | .text _ => True
  | .name p => GoodName p
  | .call p a => GoodName p ∧ a.Good

def Args.Good : Args → Prop
  | .nil => True
  | .cons k e rest => (∀ c ∈ k, nameChar c = true) ∧ e.Good ∧ rest.Good
end

mutual
def Expr.size : Expr → Nat
  | .int _ => 1
  | .text _ => 1
  | .name _ => 1
  | .call _ a => a.size + 1

def Args.size : Args → Nat
  | .nil => 1
  | .cons _ e rest => max e.size rest.size + 1
end

theorem span_all {p : Char → Bool} {l x : Str} (h : ∀ c ∈ l, p c = true) (hx : ∀ c, x.head? = some c → p c = false) :
    (l ++ x).span p = (l, x) := by
  rw [List.span_eq_takeWhile_dropWhile, List.takeWhile_append_of_pos h, List.dropWhile_append_of_pos h]
  cases x with
  | nil => simp
  | cons c x =>
    have := hx c rfl
    rw [List.takeWhile_cons_of_neg (by rw [this]; decide), List.dropWhile_cons_of_neg (by rw [this]; decide), List.append_nil]

/-- What may follow an expression. -/
def Stop (x : Str) : Prop := x = [] ∨ x.head? = some ',' ∨ x.head? = some ')'

theorem Stop.head {x : Str} (h : Stop x) {c : Char} (hc : x.head? = some c) : c = ',' ∨ c = ')' := by
  rcases h with h | h | h
  · rw [h] at hc
    cases hc
  · rw [h] at hc
    cases hc
    exact Or.inl rfl
  · rw [h] at hc
    cases hc
    exact Or.inr rfl

theorem digit_not_name {c : Char} (h : IsDigit c) : nameChar c = false ∧ c ≠ '-' ∧ c ≠ '\'' ∧ c ≠ '"' ∧ c ≠ ')' ∧ c ≠ '=' := by
  unfold IsDigit at h
  refine ⟨?_, ?_, ?_, ?_, ?_, ?_⟩
  · unfold nameChar
    have h1 : c ≠ '_' := by rintro rfl; revert h; decide
    have h2 : c ≠ '.' := by rintro rfl; revert h; decide
    have h3 : ¬ ('a'.toNat ≤ c.toNat) := by
      have : 'a'.toNat = 97 := rfl
      omega
    simp only [h1, h2, h3, decide_false, Bool.false_and, Bool.or_self]
  all_goals
    rintro rfl
    revert h
    decide

theorem name_not {c : Char} (h : nameChar c = true) : ¬ IsDigit c ∧ c ≠ '-' ∧ c ≠ '\'' ∧ c ≠ '"' ∧ c ≠ ')' ∧ c ≠ '=' := by
  refine ⟨?_, ?_, ?_, ?_, ?_, ?_⟩
  · intro hd
    rw [(digit_not_name hd).1] at h
    cases h
  all_goals
    rintro rfl
    revert h
    decide

theorem dec_digits (n : Nat) : dec n ≠ [] ∧ (∀ c ∈ dec n, IsDigit c) ∧ value (dec n) = n := by
  obtain ⟨w, hw, h1, h2, h3⟩ := Verif.DateText.dec_numeral n
  refine ⟨?_, h2, h3.symm⟩
  intro hn
  rw [hn] at h1
  exact hw h1.symm

theorem readDigits_dec (n : Nat) {x : Str} (hx : Stop x) : readDigits (dec n ++ x) = some ((n : Int), x) := by
  obtain ⟨h1, h2, h3⟩ := dec_digits n
  unfold readDigits
  rw [span_all (fun c hc => decide_eq_true (h2 c hc)) (fun c hc => by
    rcases hx.head hc with rfl | rfl <;> decide)]
  cases hd : dec n with
  | nil => exact absurd hd h1
  | cons c cs =>
    rw [hd] at h3
    show some (value (c :: cs), x) = _
    rw [h3]

/-- The first character of an expression. -/
theorem print_head {quote : Str → Str} {unquote : Str → Option (Str × Str)} (hq : Quotes quote unquote) (e : Expr) (he : e.Good) :
    ∃ c r, printExpr quote e = c :: r ∧ c ≠ ')' ∧ c ≠ '=' := by
  cases e with
  | int v =>
    unfold printExpr decInt
    obtain ⟨h1, h2, _⟩ := dec_digits v.natAbs
    split
    · exact ⟨'-', _, rfl, by decide, by decide⟩
    · cases hd : dec v.natAbs with
      | nil => exact absurd hd h1
      | cons c cs =>
        have := digit_not_name (h2 c (by rw [hd]; exact List.mem_cons_self ..))
        exact ⟨c, cs, rfl, this.2.2.2.2.1, this.2.2.2.2.2⟩
  | text s =>
    obtain ⟨_, c, hc, hh⟩ := hq s []
    unfold printExpr
    cases hs : quote s with
    | nil => rw [hs] at hh; cases hh
    | cons d ds =>
      rw [hs] at hh
      cases hh
      refine ⟨c, ds, rfl, ?_, ?_⟩ <;> rcases hc with rfl | rfl <;> decide
  | name p =>
    unfold printExpr
    cases p with
    | nil => exact absurd rfl he.1
    | cons c cs =>
      have := name_not (he.2 c (List.mem_cons_self ..))
      exact ⟨c, cs, rfl, this.2.2.2.2.1, this.2.2.2.2.2⟩
  | call p a =>
    unfold printExpr callText
    cases p with
    | nil => exact absurd rfl he.1.1
    | cons c cs =>
      have := name_not (he.1.2 c (List.mem_cons_self ..))
      exact ⟨c, _, rfl, this.2.2.2.2.1, this.2.2.2.2.2⟩

/-- An expression is not taken for a keyword. -/
theorem readKey_none {quote : Str → Str} {unquote : Str → Option (Str × Str)} (hq : Quotes quote unquote) (e : Expr) (he : e.Good)
    {x : Str} (hx : Stop x) : readKey (printExpr quote e ++ x) = ([], printExpr quote e ++ x) := by
  have hhead : ∀ (c : Char) (r : Str), nameChar c = false → c ≠ '=' → readKey (c :: r) = ([], c :: r) := by
    intro c r h1 h2
    unfold readKey
    rw [show (c :: r).span nameChar = ([], c :: r) from span_all (l := []) (fun _ h => nomatch h) (fun d hd => by cases hd; exact h1)]
    split
    · rename_i k rest hk
      cases hk
      exact absurd rfl h2
    · rfl
  have hname : ∀ (p y : Str), (∀ c ∈ p, nameChar c = true) → (∀ c, y.head? = some c → nameChar c = false ∧ c ≠ '=') →
      readKey (p ++ y) = ([], p ++ y) := by
    intro p y hp hy
    unfold readKey
    rw [span_all hp (fun c hc => (hy c hc).1)]
    split
    · rename_i k rest hk
      cases hk
      exact absurd rfl (hy '=' rfl).2
    · rfl
  have hstop : ∀ c, x.head? = some c → nameChar c = false ∧ c ≠ '=' := by
    intro c hc
    rcases hx.head hc with rfl | rfl <;> decide
  cases e with
  | int v =>
    unfold printExpr decInt
    obtain ⟨h1, h2, _⟩ := dec_digits v.natAbs
    split
    · exact hhead '-' _ (by decide) (by decide)
    · cases hd : dec v.natAbs with
      | nil => exact absurd hd h1
      | cons c cs =>
        have := digit_not_name (h2 c (by rw [hd]; exact List.mem_cons_self ..))
        exact hhead c _ this.1 this.2.2.2.2.2
  | text s =>
    obtain ⟨_, c, hc, hh⟩ := hq s []
    unfold printExpr
    cases hs : quote s with
    | nil => rw [hs] at hh; cases hh
    | cons d ds =>
      rw [hs] at hh
      cases hh
      refine hhead c _ ?_ ?_ <;> rcases hc with rfl | rfl <;> decide
  | name p => exact hname p x he.2 hstop
  | call p a =>
    unfold printExpr callText
    rw [List.append_assoc]
    exact hname p _ he.1.2 (fun c hc => by cases hc; decide)

theorem readKey_some {k : Str} (hk : k ≠ []) (hn : ∀ c ∈ k, nameChar c = true) (y : Str) : readKey (k ++ '=' :: y) = (k, y) := by
  unfold readKey
  rw [span_all hn (fun c hc => by cases hc; decide)]
  exact if_neg hk

theorem readKey_text {quote : Str → Str} {unquote : Str → Option (Str × Str)} (hq : Quotes quote unquote) (k : Str)
    (hk : ∀ c ∈ k, nameChar c = true) (e : Expr) (he : e.Good) {x : Str} (hx : Stop x) :
    readKey (keyText k ++ (printExpr quote e ++ x)) = (k, printExpr quote e ++ x) := by
  unfold keyText
  split
  · rename_i h
    rw [h, List.nil_append]
    exact readKey_none hq e he hx
  · rename_i h
    rw [List.append_assoc, List.singleton_append]
    exact readKey_some h hk _

theorem keyed_head {quote : Str → Str} {unquote : Str → Option (Str × Str)} (hq : Quotes quote unquote) (k : Str)
    (hk : ∀ c ∈ k, nameChar c = true) (e : Expr) (he : e.Good) : ∃ c r, keyText k ++ printExpr quote e = c :: r ∧ c ≠ ')' := by
  unfold keyText
  split
  · obtain ⟨c, r, h1, h2, _⟩ := print_head hq e he
    exact ⟨c, r, h1, h2⟩
  · rename_i h
    cases k with
    | nil => exact absurd rfl h
    | cons c cs => exact ⟨c, _, rfl, (name_not (hk c (List.mem_cons_self ..))).2.2.2.2.1⟩

theorem readArgs_other (unquote : Str → Option (Str × Str)) (n : Nat) {s : Str} (h : ∃ c r, s = c :: r ∧ c ≠ ')') :
    readArgs unquote (n + 1) s =
      match readExpr unquote n (readKey s).2 with
      | some (e, ')' :: rest) => some (.cons (readKey s).1 e .nil, rest)
      | some (e, ',' :: ' ' :: rest) => (readArgs unquote n rest).map fun r => (.cons (readKey s).1 e r.1, r.2)
      | _ => none := by
  obtain ⟨c, r, rfl, hc⟩ := h
  rw [readArgs]
  · rfl
  intro rest hr
  cases hr
  exact hc rfl

/-- What is written is read back. -/
theorem read_print {quote : Str → Str} {unquote : Str → Option (Str × Str)} (hq : Quotes quote unquote) (n : Nat) :
    (∀ e : Expr, e.size ≤ n → e.Good → ∀ x, Stop x → readExpr unquote n (printExpr quote e ++ x) = some (e, x)) ∧
    (∀ a : Args, a.size ≤ n → a.Good → ∀ x, readArgs unquote n (printArgs quote a ++ ')' :: x) = some (a, x)) := by
  induction n with
  | zero =>
    refine ⟨?_, ?_⟩
    · intro e he
      cases e <;> unfold Expr.size at he <;> omega
    · intro a ha
      cases a <;> unfold Args.size at ha <;> omega
  | succ n ih =>
    refine ⟨?_, ?_⟩
    · intro e hs he x hx
      cases e with
      | int v =>
        unfold printExpr decInt
        split
        · rw [List.cons_append, readExpr, if_pos rfl, readDigits_dec _ hx]
          dsimp only [Option.map_some]
          rw [show -((v.natAbs : Nat) : Int) = v by omega]
        · obtain ⟨h1, h2, _⟩ := dec_digits v.natAbs
          have hr := readDigits_dec v.natAbs hx
          cases hd : dec v.natAbs with
          | nil => exact absurd hd h1
          | cons c cs =>
            have hdig := h2 c (by rw [hd]; exact List.mem_cons_self ..)
            rw [hd, List.cons_append] at hr
            rw [List.cons_append, readExpr, if_neg (digit_not_name hdig).2.1, if_pos hdig, hr]
            dsimp only [Option.map_some]
            rw [show ((v.natAbs : Nat) : Int) = v by omega]
      | text s =>
        unfold printExpr
        obtain ⟨h1, c, hc, hh⟩ := hq s x
        cases hs : quote s with
        | nil => rw [hs] at hh; cases hh
        | cons d ds =>
          rw [hs] at hh h1
          cases hh
          rw [List.cons_append] at h1 ⊢
          rw [readExpr, if_neg (by rcases hc with rfl | rfl <;> decide), if_neg (by rcases hc with rfl | rfl <;> decide), if_pos hc, h1]
          rfl
      | name p =>
        unfold printExpr
        have hsp := span_all (x := x) he.2 (fun c hc => by rcases hx.head hc with rfl | rfl <;> decide)
        cases p with
        | nil => exact absurd rfl he.1
        | cons c cs =>
          have hc := name_not (he.2 c (List.mem_cons_self ..))
          rw [List.cons_append] at hsp ⊢
          rw [readExpr, if_neg hc.2.1, if_neg hc.1, if_neg (by rintro (h | h); exacts [hc.2.2.1 h, hc.2.2.2.1 h]), hsp]
          rcases hx with rfl | h | h
          · rfl
          all_goals
            cases x with
            | nil => cases h
            | cons d ds =>
              cases h
              rfl
      | call p a =>
        unfold printExpr callText
        have hsp := span_all (x := '(' :: (printArgs quote a ++ [')']) ++ x) he.1.2 (fun c hc => by cases hc; decide)
        have ha := ih.2 a (by unfold Expr.size at hs; omega) he.2 x
        cases p with
        | nil => exact absurd rfl he.1.1
        | cons c cs =>
          have hc := name_not (he.1.2 c (List.mem_cons_self ..))
          rw [List.append_assoc]
          rw [List.cons_append] at hsp ⊢
          rw [readExpr, if_neg hc.2.1, if_neg hc.1, if_neg (by rintro (h | h); exacts [hc.2.2.1 h, hc.2.2.2.1 h]), hsp]
          rw [List.cons_append, List.append_assoc, List.singleton_append]
          show (readArgs unquote n (printArgs quote a ++ ')' :: x)).map _ = _
          rw [ha]
          rfl
    · intro a hs ha x
      cases a with
      | nil =>
        unfold printArgs
        rw [List.nil_append, readArgs]
      | cons k e rest =>
        have hk := ha.1
        have he := ha.2.1
        have hr := ha.2.2
        unfold Args.size at hs
        obtain ⟨c, r, hcr, hc⟩ := keyed_head hq k hk e he
        cases rest with
        | nil =>
          unfold printArgs
          rw [readArgs_other unquote n ⟨c, r ++ ')' :: x, by rw [hcr]; rfl, hc⟩, List.append_assoc,
            readKey_text hq k hk e he (Or.inr (Or.inr rfl))]
          dsimp only
          rw [ih.1 e (by omega) he _ (Or.inr (Or.inr rfl))]
          rfl
        | cons k' e' rest =>
          unfold printArgs
          rw [readArgs_other unquote n ⟨c, r ++ ',' :: ' ' :: printArgs quote (.cons k' e' rest) ++ ')' :: x, by rw [hcr]; rfl, hc⟩,
            List.append_assoc, List.append_assoc, List.cons_append, List.cons_append,
            readKey_text hq k hk e he (Or.inr (Or.inl rfl))]
          dsimp only
          rw [ih.1 e (by omega) he _ (Or.inr (Or.inl rfl))]
          show (readArgs unquote n (printArgs quote (.cons k' e' rest) ++ ')' :: x)).map _ = _
          rw [ih.2 _ (by omega) hr x]
          rfl

mutual
theorem size_print {quote : Str → Str} {unquote : Str → Option (Str × Str)} (hq : Quotes quote unquote) :
    ∀ e : Expr, e.Good → e.size ≤ (printExpr quote e).length
  | .int v, h => by
    obtain ⟨c, r, h1, _⟩ := print_head hq (.int v) h
    rw [h1]
    simp [Expr.size]
  | .text s, h => by
    obtain ⟨c, r, h1, _⟩ := print_head hq (.text s) h
    rw [h1]
    simp [Expr.size]
  | .name p, h => by
    obtain ⟨c, r, h1, _⟩ := print_head hq (.name p) h
    rw [h1]
    simp [Expr.size]
  | .call p a, h => by
    have := size_args hq a h.2
    unfold printExpr callText Expr.size
    simp only [List.length_append, List.length_cons, List.length_nil]
    omega

theorem size_args {quote : Str → Str} {unquote : Str → Option (Str × Str)} (hq : Quotes quote unquote) :
    ∀ a : Args, a.Good → a.size ≤ (printArgs quote a).length + 1
  | .nil, _ => by simp [Args.size]
  | .cons k e .nil, h => by
    have := size_print hq e h.2.1
    have h1 : 1 ≤ e.size := by cases e <;> simp [Expr.size]
    unfold printArgs Args.size Args.size
    simp only [List.length_append]
    omega
  | .cons k e (.cons k' e' rest), h => by
    have := size_print hq e h.2.1
    have h2 := size_args hq (.cons k' e' rest) h.2.2
    unfold printArgs Args.size
    simp only [List.length_append, List.length_cons]
    omega
end

/-- The value of what is written. -/
theorem eval_print {quote : Str → Str} {unquote : Str → Option (Str × Str)} (hq : Quotes quote unquote) (e : Expr) (he : e.Good) :
    evalText unquote (printExpr quote e) = evalExpr e := by
  have h1 := size_print hq e he
  have h2 := (read_print hq ((printExpr quote e).length + 1)).1 e (by omega) he [] (Or.inl rfl)
  rw [List.append_nil] at h2
  unfold evalText
  rw [h2]

end Verif.DateRepr
