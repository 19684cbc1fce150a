import Verif.Lemmas.Text
import Verif.Model.PyFloat
import Verif.Spec.Numeral
import Mathlib.Tactic.IntervalCases

/-! C126: numerals. -/

namespace IBL.PyFloat
open Spec

theorem digit_iff (c : Char) (k : ℕ) : ['0', '1', '2', '3', '4', '5', '6', '7', '8', '9'][k]? = some c ↔ isDigit c = true ∧ k = c.toNat - 48 := by
  constructor
  · intro h
    have hk : k < 10 := by
      by_contra hc
      rw [List.getElem?_eq_none (by simpa using not_lt.1 hc)] at h
      cases h
    interval_cases k <;> cases h <;> decide
  · rintro ⟨h, rfl⟩
    simp only [isDigit, Bool.and_eq_true, decide_eq_true_eq] at h
    have hc : c = Char.ofNat c.toNat := (Char.ofNat_toNat c).symm
    obtain ⟨h1, h2⟩ := h
    generalize c.toNat = n at *
    subst hc
    interval_cases n <;> decide

theorem natOf_snoc (ds : Text) (c : Char) : natOf (ds ++ [c]) = 10 * natOf ds + (c.toNat - 48) := by simp [natOf]

theorem digits_iff (ds : Text) (n : ℕ) : Digits ds n ↔ (∀ c ∈ ds, isDigit c = true) ∧ n = natOf ds := by
  constructor
  · intro h
    induction h with
    | nil => simp [natOf]
    | snoc ds n c k h hc ih =>
      obtain ⟨h1, rfl⟩ := (digit_iff c k).1 hc
      refine ⟨fun x hx => ?_, by rw [natOf_snoc, ← ih.2]⟩
      rcases List.mem_append.1 hx with hx | hx
      · exact ih.1 x hx
      · rw [List.mem_singleton.1 hx]; exact h1
  · rintro ⟨h, rfl⟩
    induction ds using List.reverseRecOn with
    | nil => exact .nil
    | append_singleton ds c ih =>
      rw [natOf_snoc]
      exact .snoc _ _ _ _ (ih fun x hx => h x (by simp [hx])) ((digit_iff _ _).2 ⟨h c (by simp), rfl⟩)

theorem takeSign_of {sg : Text} {s : ℤ} (h : Sign sg s) (t : Text) (ht : t.head? ≠ some '-' ∧ t.head? ≠ some '+') : takeSign (sg ++ t) = (s, t) := by
  cases h with
  | none =>
    show takeSign t = _
    cases t with
    | nil => rfl
    | cons c t =>
      unfold takeSign
      split
      · next h => simp at h; simp [h.1] at ht
      · next h => simp at h; simp [h.1] at ht
      · rfl
  | plus => rfl
  | minus => rfl

theorem takeSign_split (t : Text) : ∃ sg, Sign sg (takeSign t).1 ∧ t = sg ++ (takeSign t).2 := by
  unfold takeSign
  split
  · exact ⟨_, .minus, rfl⟩
  · exact ⟨_, .plus, rfl⟩
  · exact ⟨_, .none, rfl⟩

theorem digit_sign {t : Text} {c : Char} (h : t.head? = some c) (hc : isDigit c = true ∨ c = '.') : t.head? ≠ some '-' ∧ t.head? ≠ some '+' := by
  rw [h]
  rcases hc with hc | rfl
  · constructor <;> rintro h <;> cases h <;> simp [isDigit] at hc
  · constructor <;> simp

theorem all_digits {ds : Text} : ds.all isDigit = true ↔ ∀ c ∈ ds, isDigit c = true := by simp

theorem exponent_iff (t : Text) (k : ℤ) : exponent t = some k ↔ Exponent t k := by
  constructor
  · intro h
    cases t with
    | nil => simp only [exponent, Option.some.injEq] at h; subst h; exact .none
    | cons c r =>
      simp only [exponent] at h
      split at h
      · next hc =>
        split at h
        · next hd =>
          obtain ⟨sg, hs, e⟩ := takeSign_split r
          rw [← Option.some.inj h]
          have := Exponent.some c sg _ _ _ hc hs ((digits_iff _ _).2 ⟨all_digits.1 hd.2, rfl⟩) hd.1
          rwa [List.cons_append, ← e] at this
        · cases h
      · cases h
  · intro h
    cases h with
    | none => rfl
    | some c sg s ds n hc hs hd hne =>
      obtain ⟨hdd, rfl⟩ := (digits_iff _ _).1 hd
      obtain ⟨d, ds', rfl⟩ := List.exists_cons_of_ne_nil hne
      have e := takeSign_of hs (d :: ds') (digit_sign (c := d) rfl (.inl (hdd d (by simp))))
      simp only [List.cons_append, exponent, hc, if_true, e]
      rw [if_pos ⟨hne, all_digits.2 hdd⟩]

theorem exponent_head {ex : Text} {k : ℤ} (h : Exponent ex k) : ∀ c, ex.head? = some c → isDigit c = false ∧ c ≠ '.' := by
  intro c hc
  cases h with
  | none => simp at hc
  | some e sg s ds n he hs hd hne =>
    simp only [List.cons_append, List.head?_cons, Option.some.injEq] at hc
    subst hc
    rcases he with rfl | rfl <;> decide

theorem takeWhile_digits {d r : Text} (hd : ∀ c ∈ d, isDigit c = true) (hr : ∀ c, r.head? = some c → isDigit c = false) :
    (d ++ r).takeWhile isDigit = d ∧ (d ++ r).dropWhile isDigit = r := by
  rw [List.takeWhile_append_of_pos hd, List.dropWhile_append_of_pos hd]
  cases r with
  | nil => simp
  | cons c r => simp [hr c rfl]

/-- The unsigned part of a numeral. -/
theorem unsigned_iff (t : Text) (q : ℚ) : unsigned t = some q ↔
    ∃ ip pt fp ex n k, (pt = ['.'] ∨ pt = [] ∧ fp = []) ∧ Digits (ip ++ fp) n ∧ ip ++ fp ≠ [] ∧ Exponent ex k ∧
      t = ip ++ pt ++ fp ++ ex ∧ q = n / 10 ^ fp.length * 10 ^ k := by
  constructor
  · intro h
    simp only [unsigned] at h
    have ht := (List.takeWhile_append_dropWhile (p := isDigit) (l := t)).symm
    have hip : ∀ c ∈ t.takeWhile isDigit, isDigit c = true := fun c hc => List.all_eq_true.1 (List.all_takeWhile (p := isDigit)) c hc
    generalize t.takeWhile isDigit = ip at *
    generalize t.dropWhile isDigit = r at *
    have hne : ip ++ (if r.head? = some '.' then r.tail.takeWhile isDigit else []) ≠ [] := fun e => by rw [if_pos e] at h; cases h
    rw [if_neg hne] at h
    simp only [Option.map_eq_some_iff] at h
    obtain ⟨k, hk, rfl⟩ := h
    rw [exponent_iff] at hk
    by_cases hp : r.head? = some '.'
    · simp only [hp, if_true] at hk hne ⊢
      obtain ⟨r', rfl⟩ : ∃ r', r = '.' :: r' := by
        cases r with
        | nil => cases hp
        | cons c r => cases hp; exact ⟨r, rfl⟩
      have hr := (List.takeWhile_append_dropWhile (p := isDigit) (l := r')).symm
      have hfp : ∀ c ∈ r'.takeWhile isDigit, isDigit c = true := fun c hc => List.all_eq_true.1 (List.all_takeWhile (p := isDigit)) c hc
      simp only [List.tail_cons] at hk hne ⊢
      generalize r'.takeWhile isDigit = fp at *
      generalize r'.dropWhile isDigit = r'' at *
      refine ⟨ip, ['.'], fp, r'', _, k, .inl rfl, (digits_iff _ _).2 ⟨fun c hc => ?_, rfl⟩, hne, hk, ?_, rfl⟩
      · exact (List.mem_append.1 hc).elim (hip c) (hfp c)
      · rw [ht, hr]; simp
    · simp only [hp, if_false, List.append_nil] at hk hne ⊢
      exact ⟨ip, [], [], r, natOf ip, k, .inr ⟨rfl, rfl⟩, (digits_iff _ _).2 ⟨by simpa using hip, by simp⟩, by simpa using hne, hk, by simpa using ht, by simp⟩
  · rintro ⟨ip, pt, fp, ex, n, k, hpt, hd, hne, hex, rfl, rfl⟩
    obtain ⟨hdd, rfl⟩ := (digits_iff _ _).1 hd
    have hip : ∀ c ∈ ip, isDigit c = true := fun c hc => hdd c (by simp [hc])
    have hfp : ∀ c ∈ fp, isDigit c = true := fun c hc => hdd c (by simp [hc])
    have hx := exponent_head hex
    rcases hpt with rfl | ⟨rfl, rfl⟩
    · obtain ⟨e1, e2⟩ := takeWhile_digits (r := '.' :: (fp ++ ex)) hip (by rintro c h; cases h; decide)
      obtain ⟨e3, e4⟩ := takeWhile_digits (r := ex) hfp fun c hc => (hx c hc).1
      rw [show ip ++ ['.'] ++ fp ++ ex = ip ++ '.' :: (fp ++ ex) by simp]
      simp only [unsigned, e1, e2, List.head?_cons, if_true, List.tail_cons, e3, e4]
      rw [if_neg hne, (exponent_iff _ _).2 hex]
      rfl
    · obtain ⟨e1, e2⟩ := takeWhile_digits (r := ex) hip fun c hc => (hx c hc).1
      have hdot : ex.head? ≠ some '.' := fun h => (hx _ h).2 rfl
      simp only [unsigned, List.append_nil, e1, e2, hdot, if_false]
      rw [if_neg (by simpa using hne), (exponent_iff _ _).2 hex]
      simp

theorem underscores_none : ∀ (p : Option Char) (t : Text), p ≠ some '_' → '_' ∉ t → underscores p t = some t
  | p, [], hp, _ => by simp [underscores, hp]
  | p, c :: t, hp, h => by
    have hc : c ≠ '_' := fun e => h (by simp [e])
    simp only [underscores, hc, if_false, hp, false_and]
    rw [underscores_none (some c) t (by simpa using hc) fun hm => h (by simp [hm])]
    rfl

theorem strip_word {w : Text} (hw : ∀ c ∈ w, isSpace c = false) : w.lstrip.rstrip = w := by
  have h1 : w.lstrip = w := by
    cases w with
    | nil => rfl
    | cons c w => simp [Text.lstrip, hw c (by simp)]
  have h2 : w.reverse.dropWhile isSpace = w.reverse := by
    cases h : w.reverse with
    | nil => rfl
    | cons c r => simp [hw c (by rw [← List.mem_reverse, h]; simp)]
  rw [h1, Text.rstrip, h2, List.reverse_reverse]

/-- A name of a special value is no numeral. -/
theorem special_none {t : Text} {c : Char} (h : t.head? = some c) (hc : isDigit c = true ∨ c = '.') : special (t.map Char.toLower) = none := by
  cases t with
  | nil => cases h
  | cons d t =>
    cases h
    have hn : c.toLower ≠ 'i' ∧ c.toLower ≠ 'n' := by
      rcases hc with hc | rfl
      · obtain ⟨k, hk⟩ : ∃ k, ['0', '1', '2', '3', '4', '5', '6', '7', '8', '9'][k]? = some c := ⟨_, (digit_iff c _).2 ⟨hc, rfl⟩⟩
        have : c ∈ ['0', '1', '2', '3', '4', '5', '6', '7', '8', '9'] := List.mem_of_getElem? hk
        simp only [List.mem_cons, List.not_mem_nil, or_false] at this
        rcases this with rfl | rfl | rfl | rfl | rfl | rfl | rfl | rfl | rfl | rfl <;> decide
      · decide
    unfold special
    split <;> rename_i h <;> simp_all

theorem first_char {ip pt fp ex : Text} {n : ℕ} (hpt : pt = ['.'] ∨ pt = [] ∧ fp = []) (hd : Digits (ip ++ fp) n) (hne : ip ++ fp ≠ []) :
    ∃ c, (ip ++ pt ++ fp ++ ex).head? = some c ∧ (isDigit c = true ∨ c = '.') := by
  have hd := ((digits_iff _ _).1 hd).1
  cases ip with
  | cons c ip => exact ⟨c, rfl, .inl (hd c (by simp))⟩
  | nil =>
    rcases hpt with rfl | ⟨rfl, rfl⟩
    · exact ⟨'.', rfl, .inr rfl⟩
    · simp at hne

/-- **C126**: a word without underscores is read as the number `q` exactly if it is a numeral for `q`. -/
theorem float_iff (w : Text) (hw : ∀ c ∈ w, isSpace c = false) (hu : '_' ∉ w) (q : ℚ) : float w = some (.fin q) ↔ Numeral w q := by
  have e : underscores none w.lstrip.rstrip = some w := by rw [strip_word hw, underscores_none _ _ (by simp) hu]
  constructor
  · intro h
    simp only [float, e] at h
    split at h
    · split at h <;> cases h
    · next v hv hs =>
      cases h
      exfalso
      unfold special at hs
      split at hs <;> cases hs
    · simp only [Option.map_eq_some_iff, Flt.fin.injEq] at h
      obtain ⟨q', h, rfl⟩ := h
      obtain ⟨ip, pt, fp, ex, n, k, h1, h2, h3, h4, h5, rfl⟩ := (unsigned_iff _ _).1 h
      obtain ⟨sg, hs, hw⟩ := takeSign_split w
      refine ⟨sg, _, ip, pt, fp, ex, n, k, hs, h1, h2, h3, h4, by rw [hw, h5]; simp, by ring⟩
  · rintro ⟨sg, s, ip, pt, fp, ex, n, k, hs, h1, h2, h3, h4, rfl, rfl⟩
    obtain ⟨c, hc, hc'⟩ := first_char (ex := ex) h1 h2 h3
    have et : takeSign (sg ++ ip ++ pt ++ fp ++ ex) = (s, ip ++ pt ++ fp ++ ex) := by
      rw [show sg ++ ip ++ pt ++ fp ++ ex = sg ++ (ip ++ pt ++ fp ++ ex) by simp]
      exact takeSign_of hs _ (digit_sign hc hc')
    simp only [float, e, et, special_none hc hc', (unsigned_iff _ _).2 ⟨ip, pt, fp, ex, n, k, h1, h2, h3, h4, rfl, rfl⟩, Option.map_some]
    congr 2
    ring

theorem fixed_numeral {w : Text} {q : ℚ} (h : Fixed w q) : Numeral w q := by
  obtain ⟨sg, s, ip, fp, n, hs, hd, hne, rfl, rfl⟩ := h
  exact ⟨sg, s, ip, ['.'], fp, [], n, 0, hs, .inl rfl, hd, hne, .none, by simp, by simp⟩

theorem digit_blank {c : Char} (h : isDigit c = true) : isSpace c = false ∧ c ≠ '_' ∧ c ≠ '.' ∧ c ≠ '*' := by
  obtain ⟨k, hk⟩ : ∃ k, ['0', '1', '2', '3', '4', '5', '6', '7', '8', '9'][k]? = some c := ⟨_, (digit_iff c _).2 ⟨h, rfl⟩⟩
  have : c ∈ ['0', '1', '2', '3', '4', '5', '6', '7', '8', '9'] := List.mem_of_getElem? hk
  simp only [List.mem_cons, List.not_mem_nil, or_false] at this
  rcases this with rfl | rfl | rfl | rfl | rfl | rfl | rfl | rfl | rfl | rfl <;> decide

theorem sign_chars {sg : Text} {s : ℤ} (h : Sign sg s) : ∀ c ∈ sg, isSpace c = false ∧ c ≠ '_' ∧ c ≠ '.' ∧ c ≠ '*' := by
  cases h with
  | none => simp
  | plus => intro c hc; rw [List.mem_singleton.1 hc]; decide
  | minus => intro c hc; rw [List.mem_singleton.1 hc]; decide

theorem exponent_chars {ex : Text} {k : ℤ} (h : Exponent ex k) : ∀ c ∈ ex, isSpace c = false ∧ c ≠ '_' ∧ c ≠ '.' ∧ c ≠ '*' := by
  cases h with
  | none => simp
  | some e sg s ds n he hs hd hne =>
    intro c hc
    simp only [List.cons_append, List.mem_cons, List.mem_append] at hc
    rcases hc with rfl | hc | hc
    · rcases he with rfl | rfl <;> decide
    · exact sign_chars hs c hc
    · exact digit_blank (((digits_iff _ _).1 hd).1 c hc)

theorem numeral_chars {w : Text} {q : ℚ} (h : Numeral w q) : (∀ c ∈ w, isSpace c = false ∧ c ≠ '_' ∧ c ≠ '*') ∧ w.count '.' ≤ 1 := by
  obtain ⟨sg, s, ip, pt, fp, ex, n, k, hs, hpt, hd, -, hex, rfl, -⟩ := h
  have hdd := ((digits_iff _ _).1 hd).1
  have h1 := sign_chars hs
  have h2 := exponent_chars hex
  have h3 : ∀ c ∈ ip, isSpace c = false ∧ c ≠ '_' ∧ c ≠ '.' ∧ c ≠ '*' := fun c hc => digit_blank (hdd c (by simp [hc]))
  have h4 : ∀ c ∈ fp, isSpace c = false ∧ c ≠ '_' ∧ c ≠ '.' ∧ c ≠ '*' := fun c hc => digit_blank (hdd c (by simp [hc]))
  have h5 : (∀ c ∈ pt, isSpace c = false ∧ c ≠ '_' ∧ c ≠ '*') ∧ pt.count '.' ≤ 1 := by
    rcases hpt with rfl | ⟨rfl, -⟩
    · exact ⟨fun c hc => by rw [List.mem_singleton.1 hc]; decide, by decide⟩
    · simp
  have zero : ∀ {l : Text}, (∀ c ∈ l, isSpace c = false ∧ c ≠ '_' ∧ c ≠ '.' ∧ c ≠ '*') → l.count '.' = 0 := fun h =>
    List.count_eq_zero.2 fun hm => (h _ hm).2.2.1 rfl
  refine ⟨fun c hc => ?_, by simp [zero h1, zero h2, zero h3, zero h4, h5.2]⟩
  simp only [List.mem_append] at hc
  rcases hc with (((hc | hc) | hc) | hc) | hc
  · exact ⟨(h1 c hc).1, (h1 c hc).2.1, (h1 c hc).2.2.2⟩
  · exact ⟨(h3 c hc).1, (h3 c hc).2.1, (h3 c hc).2.2.2⟩
  · exact h5.1 c hc
  · exact ⟨(h4 c hc).1, (h4 c hc).2.1, (h4 c hc).2.2.2⟩
  · exact ⟨(h2 c hc).1, (h2 c hc).2.1, (h2 c hc).2.2.2⟩

/-- **C126**: every numeral is read as the number it stands for. -/
theorem float_numeral {w : Text} {q : ℚ} (h : Numeral w q) : float w = some (.fin q) :=
  (float_iff w (fun c hc => ((numeral_chars h).1 c hc).1) (fun hm => ((numeral_chars h).1 _ hm).2.1 rfl) q).2 h

/-- **C126**: a numeral stands for one number only. -/
theorem numeral_unique {w : Text} {q q' : ℚ} (h : Numeral w q) (h' : Numeral w q') : q = q' := by
  have := (float_numeral h).symm.trans (float_numeral h')
  simpa using this

/-- What is read from a word that is no numeral: one of the special values, or ValueError. -/
theorem float_other (w : Text) (hw : ∀ c ∈ w, isSpace c = false) (hu : '_' ∉ w) (h : ∀ q, ¬ Numeral w q)
    (hs : special ((takeSign w).2.map Char.toLower) = none) : float w = none := by
  have e : underscores none w.lstrip.rstrip = some w := by rw [strip_word hw, underscores_none _ _ (by simp) hu]
  cases hf : float w with
  | none => rfl
  | some v =>
    exfalso
    cases v with
    | fin q => exact h q ((float_iff w hw hu q).1 hf)
    | nan | ninf | pinf =>
      simp only [float, e, hs, Option.map_eq_some_iff] at hf
      obtain ⟨q, -, hq⟩ := hf
      cases hq

/-- **C126**: two numbers with a point that are printed without a blank between them are not taken for a number. -/
theorem float_run_together {w w' : Text} {q q' : ℚ} (h : Fixed w q) (h' : Fixed w' q') : float (w ++ w') = none := by
  have n := numeral_chars (fixed_numeral h)
  have n' := numeral_chars (fixed_numeral h')
  have point : ∀ {w : Text} {q : ℚ}, Fixed w q → 1 ≤ w.count '.' := fun h => by
    obtain ⟨sg, s, ip, fp, n, hs, hd, hne, rfl, rfl⟩ := h
    simp [List.count_append, List.count_cons]
    omega
  refine float_other _ (fun c hc => ?_) (fun hm => ?_) (fun r hr => ?_) ?_
  · exact (List.mem_append.1 hc).elim (fun k => (n.1 c k).1) fun k => (n'.1 c k).1
  · exact (List.mem_append.1 hm).elim (fun k => (n.1 _ k).2.1 rfl) fun k => (n'.1 _ k).2.1 rfl
  · have := (numeral_chars hr).2
    rw [List.count_append] at this
    have := point h
    have := point h'
    omega
  · obtain ⟨sg, s, ip, fp, m, hs, hd, hne, rfl, rfl⟩ := h
    obtain ⟨c, hc, hc'⟩ := first_char (pt := ['.']) (ex := w') (.inl rfl) hd hne
    rw [show sg ++ ip ++ '.' :: fp ++ w' = sg ++ (ip ++ ['.'] ++ fp ++ w') by simp, takeSign_of hs _ (digit_sign hc hc')]
    exact special_none hc hc'

/-- **C126**: nor is a word with an asterisk, with which Fortran fills a field that is too narrow. -/
theorem float_asterisk (w : Text) (hw : ∀ c ∈ w, isSpace c = false) (hu : '_' ∉ w) (h : '*' ∈ w) : float w = none := by
  refine float_other w hw hu (fun q hq => ((numeral_chars hq).1 _ h).2.2 rfl) ?_
  obtain ⟨sg, hs, e⟩ := takeSign_split w
  have hm : '*' ∈ (takeSign w).2 := by
    rw [e] at h
    exact (List.mem_append.1 h).elim (fun k => ((sign_chars hs _ k).2.2.2 rfl).elim) id
  have hm' : '*' ∈ (takeSign w).2.map Char.toLower := List.mem_map.2 ⟨'*', hm, by decide⟩
  generalize (takeSign w).2.map Char.toLower = t at *
  unfold special
  split
  · exact absurd hm' (by decide)
  · exact absurd hm' (by decide)
  · exact absurd hm' (by decide)
  · rfl

/-- **C126**: but `NaN` and `Infinity`, in any case of letters, are read as such. -/
theorem float_special (w : Text) (hw : ∀ c ∈ w, isSpace c = false) (hu : '_' ∉ w) (h : w.map Char.toLower = "nan".toList) : float w = some .nan := by
  have e : underscores none w.lstrip.rstrip = some w := by rw [strip_word hw, underscores_none _ _ (by simp) hu]
  have hs : takeSign w = (1, w) := by
    unfold takeSign
    split
    · simp at h
    · simp at h
    · rfl
  simp [float, e, hs, h, special]

/-- Cases. -/
example : Fixed "-0.00123".toList (-123/100000) ∧ Fixed ".5".toList (1/2) ∧ Numeral "1.25E-03".toList (1/800) := by
  have d : ∀ (ds : Text) (n : ℕ), (ds.all isDigit && natOf ds == n) = true → Digits ds n := fun ds n h => by
    simp only [Bool.and_eq_true, beq_iff_eq] at h
    exact (digits_iff _ _).2 ⟨all_digits.1 h.1, h.2.symm⟩
  refine ⟨⟨['-'], _, ['0'], "00123".toList, 123, .minus, d _ _ (by decide), by simp, by decide, by rw [show "00123".toList.length = 5 from rfl]; norm_num⟩,
    ⟨[], _, [], ['5'], 5, .none, d _ _ (by decide), by simp, by decide, by norm_num⟩,
    ⟨[], _, ['1'], ['.'], "25".toList, "E-03".toList, 125, -3, .none, .inl rfl, d _ _ (by decide), by simp, ?_, by decide, by rw [show "25".toList.length = 2 from rfl]; norm_num⟩⟩
  exact .some 'E' ['-'] (-1) "03".toList 3 (.inr rfl) .minus (d _ _ (by decide)) (by simp)

end IBL.PyFloat
