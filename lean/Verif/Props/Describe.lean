import Verif.Model.Describe
import Verif.Props.NumText
import Verif.Props.Dataset

/-! # C133: what the text of an object tells about it -/

set_option linter.unusedSimpArgs false
set_option linter.unusedVariables false

namespace TEflow.Describe

open NumText TableFile Loader

/-! ## Specification -/

/-- the two numbers are the same when written with six significant digits -/
def Same (x y : Num) : Prop := ∃ z, Rounds 6 x z ∧ Rounds 6 y z

mutual
/-- the same bands, in the same order and with the same nesting, with parameters and offsets that are the same to six digits -/
inductive Alike : Shown → Shown → Prop where
  | spb {m s k m' s' k'} (h1 : Same m m') (h2 : Same s s') (h3 : Same k k') : Alike (.spb m s k) (.spb m' s' k')
  | skb {m s e k m' s' e' k'} (h1 : Same m m') (h2 : Same s s') (h3 : Same e e') (h4 : Same k k') : Alike (.skb m s e k) (.skb m' s' e' k')
  | linear {v s v' s'} (h1 : Same v v') (h2 : Same s s') : Alike (.linear v s) (.linear v' s')
  | multi {es es'} (h : AlikeAll es es') : Alike (.multi es) (.multi es')
/-- entry by entry -/
inductive AlikeAll : Entries → Entries → Prop where
  | nil : AlikeAll .nil .nil
  | cons {b d v es b' d' es'} (h1 : Alike b b') (h2 : Same d d') (h3 : AlikeAll es es') : AlikeAll (.cons b d v es) (.cons b' d' v es')
end

/-! ## Numbers in texts -/

/-- characters that end a number -/
def Stop (c : Char) : Prop := c = ',' ∨ c = ')' ∨ c = ' ' ∨ c = '#' ∨ c = '\n'

theorem digit_stop : ∀ m < 10, ¬ Stop (Nat.digitChar m) := by unfold Stop; decide

theorem expText_stop (e : ℤ) : ∀ c ∈ expText e, ¬ Stop c := by
  intro c hc
  simp only [expText, List.mem_cons] at hc
  rcases hc with rfl | hc
  · split <;> simp [Stop]
  · obtain ⟨m, hm, rfl⟩ := padded_chars _ _ c hc
    exact digit_stop m hm

theorem mant_stop (strip : Bool) (d n : Nat) : ∀ c ∈ mant strip d n, ¬ Stop c := by
  intro c hc
  rcases mant_chars strip d n c hc with ⟨m, hm, rfl⟩ | rfl
  · exact digit_stop m hm
  · simp [Stop]

theorem general_stop (p : Nat) (x : Num) : ∀ c ∈ general p x, ¬ Stop c := by
  intro c hc
  unfold general signText at hc
  rcases List.mem_append.1 hc with hc | hc
  · split at hc
    · simp at hc; subst hc; simp [Stop]
    · simp at hc
  · split at hc
    · exact mant_stop _ _ _ c hc
    · rcases List.mem_append.1 hc with hc | hc
      · exact mant_stop _ _ _ c hc
      · rcases List.mem_cons.1 hc with rfl | hc
        · simp [Stop]
        · exact expText_stop _ c hc

theorem span_inj (P : Char → Prop) {a b r r' : List Char} {c c' : Char} (ha : ∀ x ∈ a, ¬ P x) (hb : ∀ x ∈ b, ¬ P x) (hc : P c) (hc' : P c')
    (h : a ++ c :: r = b ++ c' :: r') : a = b ∧ c = c' ∧ r = r' := by
  induction a generalizing b with
  | nil =>
    cases b with
    | nil => simpa using h
    | cons y b =>
      simp only [List.nil_append, List.cons_append, List.cons.injEq] at h
      exact absurd (h.1 ▸ hc) (hb y (by simp))
  | cons x a ih =>
    cases b with
    | nil =>
      simp only [List.nil_append, List.cons_append, List.cons.injEq] at h
      exact absurd (h.1 ▸ hc') (ha x (by simp))
    | cons y b =>
      simp only [List.cons_append, List.cons.injEq] at h
      obtain ⟨h1, h2, h3⟩ := ih (b := b) (fun z hz => ha z (by simp [hz])) (fun z hz => hb z (by simp [hz])) h.2
      exact ⟨by rw [h.1, h1], h2, h3⟩

theorem num_inj {x y : Num} {c c' : Char} {r r' : List Char} (hc : Stop c) (hc' : Stop c')
    (h : general 6 x ++ c :: r = general 6 y ++ c' :: r') : general 6 x = general 6 y ∧ c = c' ∧ r = r' :=
  span_inj Stop (general_stop 6 x) (general_stop 6 y) hc hc' h

theorem Num.ext' {x y : Num} (h1 : x.neg = y.neg) (h2 : x.mag = y.mag) : x = y := by
  cases x; cases y; simp only at h1 h2; subst h1 h2; rfl

theorem same_iff (x y : Num) : general 6 x = general 6 y ↔ Same x y := by
  constructor
  · intro h
    obtain ⟨z, h1, h2, _⟩ := C126_general 6 (by norm_num) x
    obtain ⟨z', h1', h2', _⟩ := C126_general 6 (by norm_num) y
    rw [h, h1'] at h1
    cases h1
    exact ⟨z, h2, h2'⟩
  · rintro ⟨z, h1, h2⟩
    have key : ∀ x : Num, Rounds 6 x z → general 6 x = general 6 z := by
      intro x hx
      obtain ⟨z', g1, g2, g3⟩ := C126_general 6 (by norm_num) x
      have : z' = z := Num.ext' (by rw [g2.1, hx.1]) (rounded_unique g2.2 hx.2)
      rw [← g3, this]
    rw [key x h1, key y h2]

/-! ## Texts of bands -/

theorem props3 {a b c : String} {m s k m' s' k' : Num} {r r' : List Char}
    (h : joinComma [propText a m, propText b s, propText c k] ++ ')' :: r = joinComma [propText a m', propText b s', propText c k'] ++ ')' :: r') :
    general 6 m = general 6 m' ∧ general 6 s = general 6 s' ∧ general 6 k = general 6 k' ∧ r = r' := by
  simp only [joinComma, propText, List.append_assoc, List.cons_append, List.append_cancel_left_eq, List.cons.injEq, true_and] at h
  obtain ⟨h1, -, h⟩ := num_inj (.inl rfl) (.inl rfl) h
  simp only [List.append_cancel_left_eq, List.cons.injEq, true_and] at h
  obtain ⟨h2, -, h⟩ := num_inj (.inl rfl) (.inl rfl) h
  simp only [List.append_cancel_left_eq, List.cons.injEq, true_and] at h
  obtain ⟨h3, -, h⟩ := num_inj (.inr (.inl rfl)) (.inr (.inl rfl)) h
  exact ⟨h1, h2, h3, h⟩

theorem props4 {a b c d : String} {m s e k m' s' e' k' : Num} {r r' : List Char}
    (h : joinComma [propText a m, propText b s, propText c e, propText d k] ++ ')' :: r =
      joinComma [propText a m', propText b s', propText c e', propText d k'] ++ ')' :: r') :
    general 6 m = general 6 m' ∧ general 6 s = general 6 s' ∧ general 6 e = general 6 e' ∧ general 6 k = general 6 k' ∧ r = r' := by
  simp only [joinComma, propText, List.append_assoc, List.cons_append, List.append_cancel_left_eq, List.cons.injEq, true_and] at h
  obtain ⟨h1, -, h⟩ := num_inj (.inl rfl) (.inl rfl) h
  simp only [List.append_cancel_left_eq, List.cons.injEq, true_and] at h
  obtain ⟨h2, -, h⟩ := num_inj (.inl rfl) (.inl rfl) h
  simp only [List.append_cancel_left_eq, List.cons.injEq, true_and] at h
  obtain ⟨h3, -, h⟩ := num_inj (.inl rfl) (.inl rfl) h
  simp only [List.append_cancel_left_eq, List.cons.injEq, true_and] at h
  obtain ⟨h4, -, h⟩ := num_inj (.inr (.inl rfl)) (.inr (.inl rfl)) h
  exact ⟨h1, h2, h3, h4, h⟩

theorem props2 {a b : String} {m s m' s' : Num} {r r' : List Char}
    (h : joinComma [propText a m, propText b s] ++ ')' :: r = joinComma [propText a m', propText b s'] ++ ')' :: r') :
    general 6 m = general 6 m' ∧ general 6 s = general 6 s' ∧ r = r' := by
  simp only [joinComma, propText, List.append_assoc, List.cons_append, List.append_cancel_left_eq, List.cons.injEq, true_and] at h
  obtain ⟨h1, -, h⟩ := num_inj (.inl rfl) (.inl rfl) h
  simp only [List.append_cancel_left_eq, List.cons.injEq, true_and] at h
  obtain ⟨h2, -, h⟩ := num_inj (.inr (.inl rfl)) (.inr (.inl rfl)) h
  exact ⟨h1, h2, h⟩

theorem lit_spb : "APSSPB(".toList = ['A', 'P', 'S', 'S', 'P', 'B', '('] := by decide +kernel
theorem lit_skb : "APSSKB(".toList = ['A', 'P', 'S', 'S', 'K', 'B', '('] := by decide +kernel
theorem lit_linear : "LinearBand(".toList = ['L', 'i', 'n', 'e', 'a', 'r', 'B', 'a', 'n', 'd', '('] := by decide +kernel
theorem lit_multi : "MultiBands:".toList = ['M', 'u', 'l', 't', 'i', 'B', 'a', 'n', 'd', 's', ':'] := by decide +kernel
theorem lit_sep : "\n  ".toList = ['\n', ' ', ' '] := by decide +kernel
theorem lit_at : " @ ".toList = [' ', '@', ' '] := by decide +kernel
theorem lit_type : " #".toList = [' ', '#'] := by decide +kernel

/-- what may follow the text of a band: nothing or ` @ ` -/
def Tail (r : List Char) : Prop := r = [] ∨ ∃ t, r = ' ' :: t

/-- the fifth character tells the class -/
def fifth : Shown → Char
  | .spb .. => 'P'
  | .skb .. => 'K'
  | .linear .. => 'a'
  | .multi _ => 'i'

theorem text_fifth (b : Shown) (r : List Char) : (bandText b ++ r)[4]? = some (fifth b) := by
  cases b
  · rw [bandText, spbText, lit_spb]; rfl
  · rw [bandText, skbText, lit_skb]; rfl
  · rw [bandText, linearText, lit_linear]; rfl
  · rw [bandText, multiText, lit_multi]; rfl

theorem fifth_eq {a b : Shown} {r r' : List Char} (h : bandText a ++ r = bandText b ++ r') : fifth a = fifth b := by
  have h1 := text_fifth a r
  rw [h, text_fifth b r'] at h1
  exact (Option.some.inj h1).symm

theorem spb_inj {m s k m' s' k' : Num} {r r' : List Char} (h : bandText (.spb m s k) ++ r = bandText (.spb m' s' k') ++ r') :
    Alike (.spb m s k) (.spb m' s' k') ∧ r = r' := by
  simp only [bandText, spbText, skbText, linearText, multiText, List.append_assoc, List.append_cancel_left_eq, List.cons_append, List.nil_append] at h
  obtain ⟨h1, h2, h3, h4⟩ := props3 h
  exact ⟨.spb ((same_iff _ _).1 h1) ((same_iff _ _).1 h2) ((same_iff _ _).1 h3), h4⟩

theorem skb_inj {m s e k m' s' e' k' : Num} {r r' : List Char} (h : bandText (.skb m s e k) ++ r = bandText (.skb m' s' e' k') ++ r') :
    Alike (.skb m s e k) (.skb m' s' e' k') ∧ r = r' := by
  simp only [bandText, spbText, skbText, linearText, multiText, List.append_assoc, List.append_cancel_left_eq, List.cons_append, List.nil_append] at h
  obtain ⟨h1, h2, h3, h4, h5⟩ := props4 h
  exact ⟨.skb ((same_iff _ _).1 h1) ((same_iff _ _).1 h2) ((same_iff _ _).1 h3) ((same_iff _ _).1 h4), h5⟩

theorem linear_inj {v s v' s' : Num} {r r' : List Char} (h : bandText (.linear v s) ++ r = bandText (.linear v' s') ++ r') :
    Alike (.linear v s) (.linear v' s') ∧ r = r' := by
  simp only [bandText, spbText, skbText, linearText, multiText, List.append_assoc, List.append_cancel_left_eq, List.cons_append, List.nil_append] at h
  obtain ⟨h1, h2, h3⟩ := props2 h
  exact ⟨.linear ((same_iff _ _).1 h1) ((same_iff _ _).1 h2), h3⟩

theorem multi_inj {es es' : Entries} {r r' : List Char} (h : bandText (.multi es) ++ r = bandText (.multi es') ++ r') :
    entriesText es ++ r = entriesText es' ++ r' := by
  simpa only [bandText, multiText, List.append_assoc, List.append_cancel_left_eq] using h

theorem entry_split {b d v es b' d' v' es'} {r r' : List Char} (h : entriesText (.cons b d v es) ++ r = entriesText (.cons b' d' v' es') ++ r') :
    ∃ t t', bandText b ++ ' ' :: t = bandText b' ++ ' ' :: t' ∧
      (t = t' → general 6 d = general 6 d' ∧ v = v' ∧ entriesText es ++ r = entriesText es' ++ r') := by
  simp only [entriesText, entryText, List.append_assoc, List.append_cancel_left_eq, List.cons_append, lit_at, List.nil_append] at h
  refine ⟨_, _, h, ?_⟩
  intro h2
  simp only [List.cons.injEq, true_and, lit_type, List.cons_append, List.nil_append] at h2
  obtain ⟨h3, -, h4⟩ := num_inj (.inr (.inr (.inl rfl))) (.inr (.inr (.inl rfl))) h2
  simp only [List.cons.injEq, true_and] at h4
  refine ⟨h3, ?_, h4.2⟩
  cases v <;> cases v' <;> simp_all

theorem entry_head {b d v es} {r : List Char} : (entriesText (.cons b d v es) ++ r)[0]? = some '\n' := by
  rw [entriesText, entryText, lit_sep]; rfl

mutual
theorem text_inj : ∀ (a b : Shown) (r r' : List Char), Tail r → Tail r' → bandText a ++ r = bandText b ++ r' → Alike a b ∧ r = r'
  | .spb m s k, b, r, r', hr, hr', h => by
    have h5 := fifth_eq h
    cases b with
    | spb m' s' k' => exact spb_inj h
    | _ => exact absurd h5 (by simp only [fifth]; decide)
  | .skb m s e k, b, r, r', hr, hr', h => by
    have h5 := fifth_eq h
    cases b with
    | skb m' s' e' k' => exact skb_inj h
    | _ => exact absurd h5 (by simp only [fifth]; decide)
  | .linear v s, b, r, r', hr, hr', h => by
    have h5 := fifth_eq h
    cases b with
    | linear v' s' => exact linear_inj h
    | _ => exact absurd h5 (by simp only [fifth]; decide)
  | .multi es, b, r, r', hr, hr', h => by
    have h5 := fifth_eq h
    cases b with
    | multi es' =>
      obtain ⟨h1, h2⟩ := entries_inj es es' r r' hr hr' (multi_inj h)
      exact ⟨.multi h1, h2⟩
    | _ => exact absurd h5 (by simp only [fifth]; decide)
theorem entries_inj : ∀ (a b : Entries) (r r' : List Char), Tail r → Tail r' → entriesText a ++ r = entriesText b ++ r' → AlikeAll a b ∧ r = r'
  | .nil, b, r, r', hr, hr', h => by
    cases b with
    | nil => exact ⟨.nil, h⟩
    | cons b d v es =>
      have h0 := entry_head (b := b) (d := d) (v := v) (es := es) (r := r')
      rw [← h] at h0
      rcases hr with rfl | ⟨t, rfl⟩
      · cases h0
      · simp [entriesText] at h0
  | .cons b d v es, c, r, r', hr, hr', h => by
    cases c with
    | nil =>
      have h0 := entry_head (b := b) (d := d) (v := v) (es := es) (r := r)
      rw [h] at h0
      rcases hr' with rfl | ⟨t, rfl⟩
      · cases h0
      · simp [entriesText] at h0
    | cons b' d' v' es' =>
      obtain ⟨t, t', ht, hrest⟩ := entry_split h
      obtain ⟨h1, h2⟩ := text_inj b b' _ _ (.inr ⟨_, rfl⟩) (.inr ⟨_, rfl⟩) ht
      obtain ⟨h3, h4, h5⟩ := hrest (List.cons.inj h2).2
      subst h4
      obtain ⟨h6, h7⟩ := entries_inj es es' r r' hr hr' h5
      exact ⟨.cons h1 ((same_iff _ _).1 h3) h6, h7⟩
end

mutual
theorem text_alike : ∀ {a b : Shown}, Alike a b → bandText a = bandText b
  | _, _, .spb h1 h2 h3 => by simp only [bandText, spbText, skbText, linearText, propText, (same_iff _ _).2 h1, (same_iff _ _).2 h2, (same_iff _ _).2 h3]
  | _, _, .skb h1 h2 h3 h4 => by simp only [bandText, spbText, skbText, linearText, propText, (same_iff _ _).2 h1, (same_iff _ _).2 h2, (same_iff _ _).2 h3, (same_iff _ _).2 h4]
  | _, _, .linear h1 h2 => by simp only [bandText, spbText, skbText, linearText, propText, (same_iff _ _).2 h1, (same_iff _ _).2 h2]
  | _, _, .multi h => by simp only [bandText, entries_alike h]
theorem entries_alike : ∀ {a b : Entries}, AlikeAll a b → entriesText a = entriesText b
  | _, _, .nil => rfl
  | _, _, .cons h1 h2 h3 => by simp only [entriesText, entryText, text_alike h1, (same_iff _ _).2 h2, entries_alike h3]
end

/-- **C133** The text of a model tells everything about it that six digits can tell: two models, however many bands and however deeply
nested, have the same text exactly if they have the same bands in the same order with the same valence or conduction marks, and the same
parameters and offsets to six significant digits. -/
theorem C133_text (a b : Shown) : bandText a = bandText b ↔ Alike a b := by
  refine ⟨fun h => ?_, text_alike⟩
  exact (text_inj a b [] [] (.inl rfl) (.inl rfl) (by simpa using h)).1

/-! ## Models whose numbers have at most six digits -/

mutual
/-- all parameters and offsets have at most six significant digits -/
def Short : Shown → Prop
  | .spb m s k => Digits 6 m.mag ∧ Digits 6 s.mag ∧ Digits 6 k.mag
  | .skb m s e k => Digits 6 m.mag ∧ Digits 6 s.mag ∧ Digits 6 e.mag ∧ Digits 6 k.mag
  | .linear v s => Digits 6 v.mag ∧ Digits 6 s.mag
  | .multi es => ShortAll es
/-- all entries -/
def ShortAll : Entries → Prop
  | .nil => True
  | .cons b d _ es => Short b ∧ Digits 6 d.mag ∧ ShortAll es
end

theorem same_eq {x y : Num} (h : Same x y) (hx : Digits 6 x.mag) (hy : Digits 6 y.mag) : x = y := by
  obtain ⟨z, h1, h2⟩ := h
  refine Num.ext' (by rw [← h1.1, h2.1]) ?_
  rw [← rounded_exact x.nonneg h1.2 hx, ← rounded_exact y.nonneg h2.2 hy]

mutual
theorem alike_eq : ∀ {a b : Shown}, Alike a b → Short a → Short b → a = b
  | _, _, .spb h1 h2 h3, ha, hb => by
    simp only [Short] at ha hb
    rw [same_eq h1 ha.1 hb.1, same_eq h2 ha.2.1 hb.2.1, same_eq h3 ha.2.2 hb.2.2]
  | _, _, .skb h1 h2 h3 h4, ha, hb => by
    simp only [Short] at ha hb
    rw [same_eq h1 ha.1 hb.1, same_eq h2 ha.2.1 hb.2.1, same_eq h3 ha.2.2.1 hb.2.2.1, same_eq h4 ha.2.2.2 hb.2.2.2]
  | _, _, .linear h1 h2, ha, hb => by
    simp only [Short] at ha hb
    rw [same_eq h1 ha.1 hb.1, same_eq h2 ha.2 hb.2]
  | _, _, .multi h, ha, hb => by
    simp only [Short] at ha hb
    rw [alikeAll_eq h ha hb]
theorem alikeAll_eq : ∀ {a b : Entries}, AlikeAll a b → ShortAll a → ShortAll b → a = b
  | _, _, .nil, _, _ => rfl
  | _, _, .cons h1 h2 h3, ha, hb => by
    simp only [ShortAll] at ha hb
    rw [alike_eq h1 ha.1 hb.1, same_eq h2 ha.2.1 hb.2.1, alikeAll_eq h3 ha.2.2 hb.2.2]
end

/-- **C133** If no number has more than six digits, the text determines the model. -/
theorem C133_exact (a b : Shown) (ha : Short a) (hb : Short b) : bandText a = bandText b ↔ a = b :=
  ⟨fun h => alike_eq ((C133_text a b).1 h) ha hb, fun h => by rw [h]⟩

/-! ## One line per band -/

/-- `MultiBands.append` at the end -/
def Entries.snoc : Entries → Shown → Num → Bool → Entries
  | .nil, b, d, v => .cons b d v .nil
  | .cons b' d' v' es, b, d, v => .cons b' d' v' (es.snoc b d v)

/-- the number of bands of a `MultiBands` object, those of `MultiBands` objects among them included -/
def lines : Shown → Nat
  | .multi es => go es
  | _ => 0
where
  go : Entries → Nat
  | .nil => 0
  | .cons b _ _ es => 1 + lines b + go es

theorem number_newline (x : Num) : '\n' ∉ general 6 x := fun h => general_stop 6 x _ h (by simp [Stop])

theorem spb_newline (m s k : Num) : (spbText m s k).count '\n' = 0 := by
  refine List.count_eq_zero.2 ?_
  rw [spbText, lit_spb]
  simp [joinComma, propText, number_newline, show "m_d".toList = ['m', '_', 'd'] by decide +kernel,
    show "sigma0".toList = ['s', 'i', 'g', 'm', 'a', '0'] by decide +kernel, show "Kmass".toList = ['K', 'm', 'a', 's', 's'] by decide +kernel]

theorem skb_newline (m s e k : Num) : (skbText m s e k).count '\n' = 0 := by
  refine List.count_eq_zero.2 ?_
  rw [skbText, lit_skb]
  simp [joinComma, propText, number_newline, show "m_d".toList = ['m', '_', 'd'] by decide +kernel, show "Eg".toList = ['E', 'g'] by decide +kernel,
    show "sigma0".toList = ['s', 'i', 'g', 'm', 'a', '0'] by decide +kernel, show "Kmass".toList = ['K', 'm', 'a', 's', 's'] by decide +kernel]

theorem linear_newline (v s : Num) : (linearText v s).count '\n' = 0 := by
  refine List.count_eq_zero.2 ?_
  rw [linearText, lit_linear]
  simp [joinComma, propText, number_newline, show "vF".toList = ['v', 'F'] by decide +kernel,
    show "sigma0".toList = ['s', 'i', 'g', 'm', 'a', '0'] by decide +kernel]

theorem entry_newline (b : List Char) (d : Num) (v : Bool) (r : List Char) :
    (entryText b d v r).count '\n' = 1 + b.count '\n' + r.count '\n' := by
  rw [entryText, lit_sep, lit_at, lit_type]
  have h : (general 6 d).count '\n' = 0 := List.count_eq_zero.2 (number_newline d)
  cases v <;> simp [List.count_append, List.count_cons, h] <;> omega

theorem multi_newline (r : List Char) : (multiText r).count '\n' = r.count '\n' := by
  rw [multiText, lit_multi]
  simp [List.count_append, List.count_cons]

mutual
theorem text_lines : ∀ a : Shown, (bandText a).count '\n' = lines a
  | .spb m s k => by rw [bandText, spb_newline, lines]; simp
  | .skb m s e k => by rw [bandText, skb_newline, lines]; simp
  | .linear v s => by rw [bandText, linear_newline, lines]; simp
  | .multi es => by rw [bandText, multi_newline, entries_lines es, lines]
theorem entries_lines : ∀ es : Entries, (entriesText es).count '\n' = lines.go es
  | .nil => by rw [entriesText, lines.go]; rfl
  | .cons b d v es => by rw [entriesText, entry_newline, text_lines b, entries_lines es, lines.go]
end

theorem entry_append (b : List Char) (d : Num) (v : Bool) (r t : List Char) : entryText b d v (r ++ t) = entryText b d v r ++ t := by
  simp only [entryText, List.append_assoc, List.cons_append]

theorem snoc_text (es : Entries) (b : Shown) (d : Num) (v : Bool) :
    entriesText (es.snoc b d v) = entriesText es ++ entryText (bandText b) d v [] := by
  match es with
  | .nil => rw [Entries.snoc, entriesText, entriesText, entriesText, List.nil_append]
  | .cons b' d' v' es =>
    have ih := snoc_text es b d v
    rw [Entries.snoc, entriesText, entriesText, ih, entry_append]

/-- **C133** The text has one line per band after the first one, bands of nested models included, and none for a single band; a band added to a
model adds its line at the end and leaves the others. -/
theorem C133_lines (a : Shown) (es : Entries) (b : Shown) (d : Num) (v : Bool) :
    (bandText a).count '\n' = lines a ∧
    bandText (.multi (es.snoc b d v)) = bandText (.multi es) ++ entryText (bandText b) d v [] := by
  refine ⟨text_lines a, ?_⟩
  rw [bandText, bandText, snoc_text, multiText, multiText, List.append_assoc]

/-- **C133** The texts spelt out: the name of the class with the parameters of a single band, an empty model, and the line that a band added to a
model gives. -/
theorem C133_form (m s k e w d : Num) (es : Entries) (b : Shown) (v : Bool) :
    bandText (.spb m s k) =
      "APSSPB(m_d=".toList ++ general 6 m ++ ", sigma0=".toList ++ general 6 s ++ ", Kmass=".toList ++ general 6 k ++ ")".toList ∧
    bandText (.skb m s e k) =
      "APSSKB(m_d=".toList ++ general 6 m ++ ", sigma0=".toList ++ general 6 s ++ ", Eg=".toList ++ general 6 e ++ ", Kmass=".toList ++
        general 6 k ++ ")".toList ∧
    bandText (.linear w s) = "LinearBand(vF=".toList ++ general 6 w ++ ", sigma0=".toList ++ general 6 s ++ ")".toList ∧
    bandText (.multi .nil) = "MultiBands:".toList ∧
    bandText (.multi (es.snoc b d v)) =
      bandText (.multi es) ++ "\n  ".toList ++ bandText b ++ " @ ".toList ++ general 6 d ++ (if v then " #V" else " #C").toList := by
  refine ⟨?_, ?_, ?_, ?_, ?_⟩
  · rw [bandText, spbText, lit_spb, show "APSSPB(m_d=".toList = ['A', 'P', 'S', 'S', 'P', 'B', '(', 'm', '_', 'd', '='] by decide +kernel,
      show ", sigma0=".toList = [',', ' ', 's', 'i', 'g', 'm', 'a', '0', '='] by decide +kernel,
      show ", Kmass=".toList = [',', ' ', 'K', 'm', 'a', 's', 's', '='] by decide +kernel, show ")".toList = [')'] by decide +kernel]
    simp [joinComma, propText, show "m_d".toList = ['m', '_', 'd'] by decide +kernel,
      show "sigma0".toList = ['s', 'i', 'g', 'm', 'a', '0'] by decide +kernel, show "Kmass".toList = ['K', 'm', 'a', 's', 's'] by decide +kernel]
  · rw [bandText, skbText, lit_skb, show "APSSKB(m_d=".toList = ['A', 'P', 'S', 'S', 'K', 'B', '(', 'm', '_', 'd', '='] by decide +kernel,
      show ", sigma0=".toList = [',', ' ', 's', 'i', 'g', 'm', 'a', '0', '='] by decide +kernel,
      show ", Eg=".toList = [',', ' ', 'E', 'g', '='] by decide +kernel,
      show ", Kmass=".toList = [',', ' ', 'K', 'm', 'a', 's', 's', '='] by decide +kernel, show ")".toList = [')'] by decide +kernel]
    simp [joinComma, propText, show "m_d".toList = ['m', '_', 'd'] by decide +kernel, show "Eg".toList = ['E', 'g'] by decide +kernel,
      show "sigma0".toList = ['s', 'i', 'g', 'm', 'a', '0'] by decide +kernel, show "Kmass".toList = ['K', 'm', 'a', 's', 's'] by decide +kernel]
  · rw [bandText, linearText, lit_linear, show "LinearBand(vF=".toList = ['L', 'i', 'n', 'e', 'a', 'r', 'B', 'a', 'n', 'd', '(', 'v', 'F', '='] by
        decide +kernel,
      show ", sigma0=".toList = [',', ' ', 's', 'i', 'g', 'm', 'a', '0', '='] by decide +kernel, show ")".toList = [')'] by decide +kernel]
    simp [joinComma, propText, show "vF".toList = ['v', 'F'] by decide +kernel,
      show "sigma0".toList = ['s', 'i', 'g', 'm', 'a', '0'] by decide +kernel]
  · rw [bandText, entriesText, multiText, List.append_nil]
  · rw [(C133_lines b es b d v).2, entryText, lit_sep, lit_at, lit_type]
    cases v
    · rw [if_neg (by decide), if_neg (by decide), show " #C".toList = [' ', '#', 'C'] by decide +kernel]
      simp only [List.append_assoc, List.cons_append, List.nil_append]
    · rw [if_pos rfl, if_pos rfl, show " #V".toList = [' ', '#', 'V'] by decide +kernel]
      simp only [List.append_assoc, List.cons_append, List.nil_append]

/-- a small number for the examples -/
def num (q : ℚ) (h : 0 ≤ q) : Num := ⟨false, q, h⟩

example : bandText (.multi (.cons (.spb (num (5 / 2) (by norm_num)) (num 100 (by norm_num)) (num 1 (by norm_num))) (num 0 (by norm_num)) true
    (.cons (.linear (num 1 (by norm_num)) (num (1 / 3) (by norm_num))) (num (3 / 20) (by norm_num)) false .nil))) =
    "MultiBands:\n  APSSPB(m_d=2.5, sigma0=100, Kmass=1) @ 0 #V\n  LinearBand(vF=1, sigma0=0.333333) @ 0.15 #C".toList := by
  simp only [bandText, entriesText, multiText, entryText, spbText, linearText, num]
  decide +kernel

/-! ## Data sets -/

theorem natText_inj {a b : Nat} (h : natText a = natText b) : a = b := by
  have h1 := digitsVal_padded 1 a
  rw [show padded 1 a = padded 1 b from h, digitsVal_padded] at h1
  exact (Option.some.inj h1).symm

theorem natText_stop (n : Nat) : ∀ c ∈ natText n, ¬ Stop c := by
  intro c hc
  obtain ⟨m, hm, rfl⟩ := padded_chars 1 n c hc
  exact digit_stop m hm

/-- items none of which contains a comma are told apart in the joined text -/
theorem joinComma_inj : ∀ (l l' : List (List Char)), (∀ a ∈ l, ',' ∉ a ∧ a ≠ []) → (∀ a ∈ l', ',' ∉ a ∧ a ≠ []) →
    joinComma l = joinComma l' → l = l' := by
  have ne : ∀ (a : List Char) l, a ≠ [] → joinComma (a :: l) ≠ [] := by
    intro a l ha
    cases l <;> simp [joinComma, ha]
  intro l
  induction l with
  | nil =>
    intro l' _ h' h
    cases l' with
    | nil => rfl
    | cons b l' => exact absurd h.symm (ne b l' (h' b (by simp)).2)
  | cons a l ih =>
    intro l' h h' e
    cases l' with
    | nil => exact absurd e (ne a l (h a (by simp)).2)
    | cons b l' =>
      have ha := (h a (by simp)).1
      have hb := (h' b (by simp)).1
      cases l with
      | nil =>
        cases l' with
        | nil => simpa [joinComma] using e
        | cons c l' =>
          simp only [joinComma] at e
          exact absurd (by rw [e]; simp) ha
      | cons c l =>
        cases l' with
        | nil =>
          simp only [joinComma] at e
          exact absurd (by rw [← e]; simp) hb
        | cons c' l' =>
          simp only [joinComma] at e
          obtain ⟨h1, -, h2⟩ := span_inj (· = ',') (fun x hx e => ha (e ▸ hx)) (fun x hx e => hb (e ▸ hx)) rfl rfl e
          rw [h1, ih (c' :: l') (fun x hx => h x (by simp [hx])) (fun x hx => h' x (by simp [hx])) (List.cons.inj h2).2]

/-- a name of a property: no comma and no `#`, as every name that a `group` text can give -/
def Plain (k : String) : Prop := ',' ∉ k.toList ∧ '#' ∉ k.toList

/-- **C133** Every name that `parse_group` reads from a text is such a name. -/
theorem C133_names (s : List Char) (names : List (List Char)) (h : parseGroup (.text s) = .ok names) : ∀ k ∈ names, Plain (String.ofList k) := by
  rw [C22_text] at h
  cases h
  intro k hk
  obtain ⟨t, -, ht⟩ := List.mem_filterMap.1 hk
  have up : ∀ c : Char, isUpper c = true → c ≠ ',' ∧ c ≠ '#' := by
    intro c hc; constructor <;> (rintro rfl; revert hc; decide)
  have tl : ∀ c : Char, isIdTail c = true → c ≠ ',' ∧ c ≠ '#' := by
    intro c hc; constructor <;> (rintro rfl; revert hc; decide)
  have key : ∀ c ∈ k, c ≠ ',' ∧ c ≠ '#' := by
    intro c hc
    cases t with
    | nil => cases ht
    | cons a r =>
      rw [identAt_eq] at ht
      by_cases ha : isUpper a = true
      · rw [if_pos ha] at ht
        cases r with
        | nil =>
          cases ht
          rw [List.mem_singleton.1 hc]; exact up a ha
        | cons d r =>
          simp only [Option.some.injEq] at ht
          by_cases hd : isIdTail d = true
          · rw [if_pos hd] at ht
            subst ht
            simp only [List.mem_cons, List.not_mem_nil, or_false] at hc
            rcases hc with rfl | rfl
            · exact up _ ha
            · exact tl _ hd
          · rw [if_neg hd] at ht
            subst ht
            rw [List.mem_singleton.1 hc]; exact up a ha
      · rw [if_neg ha] at ht; cases ht
  rw [Plain, String.toList_ofList]
  exact ⟨fun h => (key _ h).1 rfl, fun h => (key _ h).2 rfl⟩

/-- **C133** The text of a data set lists the properties in their order with the number of their values: two data sets have the same text
exactly if they agree in that. -/
theorem C133_dataset {τ τ' α β : Type} (a : Dataset τ (List α)) (b : Dataset τ' (List β)) (ha : ∀ p ∈ a, Plain p.1) (hb : ∀ p ∈ b, Plain p.1) :
    datasetText a = datasetText b ↔ a.map (fun p => (p.1, p.2.data.length)) = b.map (fun p => (p.1, p.2.data.length)) := by
  constructor
  · intro h
    simp only [datasetText, List.append_cancel_left_eq] at h
    have clean : ∀ {τ α : Type} (d : Dataset τ (List α)), (∀ p ∈ d, Plain p.1) →
        ∀ x ∈ d.map (fun p => p.1.toList ++ '#' :: natText p.2.data.length), ',' ∉ x ∧ x ≠ [] := by
      intro τ α d hd x hx
      obtain ⟨p, hp, rfl⟩ := List.mem_map.1 hx
      refine ⟨?_, by simp⟩
      intro hc
      rcases List.mem_append.1 hc with hc | hc
      · exact (hd p hp).1 hc
      · rcases List.mem_cons.1 hc with hc | hc
        · cases hc
        · exact natText_stop _ _ hc (by simp [Stop])
    have h1 := joinComma_inj _ _ (clean a ha) (clean b hb) h
    clear h clean
    induction a generalizing b with
    | nil => cases b with
      | nil => rfl
      | cons q b => cases h1
    | cons p a ih =>
      cases b with
      | nil => cases h1
      | cons q b =>
        simp only [List.map_cons, List.cons.injEq] at h1
        obtain ⟨e1, -, e2⟩ := span_inj (· = '#') (fun x hx e => (ha p (by simp)).2 (e ▸ hx)) (fun x hx e => (hb q (by simp)).2 (e ▸ hx)) rfl rfl h1.1
        simp only [List.map_cons, List.cons.injEq, Prod.mk.injEq]
        exact ⟨⟨String.toList_inj.1 e1, natText_inj e2⟩, ih b (fun x hx => ha x (by simp [hx])) (fun x hx => hb x (by simp [hx])) h1.2⟩
  · intro h
    have h1 : a.map (fun p => p.1.toList ++ '#' :: natText p.2.data.length) = b.map (fun p => p.1.toList ++ '#' :: natText p.2.data.length) := by
      have := congrArg (List.map fun q : String × Nat => q.1.toList ++ '#' :: natText q.2) h
      simpa only [List.map_map, Function.comp_def] using this
    rw [datasetText, datasetText, h1]

/-- the key and the index of its temperatures are told apart, from the right -/
theorem key_index {k k' : List Char} {i j : Nat} (h : k ++ '_' :: 'T' :: natText i = k' ++ '_' :: 'T' :: natText j) : k = k' ∧ i = j := by
  have h1 : (natText i).reverse ++ 'T' :: ('_' :: k.reverse) = (natText j).reverse ++ 'T' :: ('_' :: k'.reverse) := by
    have := congrArg List.reverse h
    simpa using this
  have hT : ∀ n : Nat, ∀ x ∈ (natText n).reverse, ¬ x = 'T' := by
    intro n x hx
    obtain ⟨m, hm, rfl⟩ := padded_chars 1 n x (List.mem_reverse.1 hx)
    have : ∀ m < 10, ¬ Nat.digitChar m = 'T' := by decide
    exact this m hm
  obtain ⟨e1, -, e2⟩ := span_inj (· = 'T') (hT i) (hT j) rfl rfl h1
  refine ⟨?_, natText_inj (List.reverse_injective e1)⟩
  exact List.reverse_injective (List.cons.inj e2).2

/-- **C133** With temperatures, the text also tells which column holds the temperatures of each property. -/
theorem C133_dataset2 {τ τ' α β : Type} (a : Dataset τ (List α)) (b : Dataset τ' (List β)) (ha : ∀ p ∈ a, Plain p.1 ∧ 0 ≤ p.2.tidx)
    (hb : ∀ p ∈ b, Plain p.1 ∧ 0 ≤ p.2.tidx) :
    dataset2Text a = dataset2Text b ↔
      a.map (fun p => (p.1, p.2.tidx, p.2.data.length)) = b.map (fun p => (p.1, p.2.tidx, p.2.data.length)) := by
  constructor
  · intro h
    simp only [dataset2Text, List.append_cancel_left_eq] at h
    have clean : ∀ {τ α : Type} (d : Dataset τ (List α)), (∀ p ∈ d, Plain p.1 ∧ 0 ≤ p.2.tidx) →
        ∀ x ∈ d.map (fun p => p.1.toList ++ ('_' :: 'T' :: (natText p.2.tidx.toNat ++ '#' :: natText p.2.data.length))), ',' ∉ x ∧ x ≠ [] := by
      intro τ α d hd x hx
      obtain ⟨p, hp, rfl⟩ := List.mem_map.1 hx
      refine ⟨?_, by simp⟩
      have n1 : ∀ n, ',' ∉ natText n := fun n hc => natText_stop _ _ hc (by simp [Stop])
      simp only [List.mem_append, List.mem_cons, not_or]
      exact ⟨(hd p hp).1.1, by decide, by decide, n1 _, by decide, n1 _⟩
    have h1 := joinComma_inj _ _ (clean a ha) (clean b hb) h
    clear h clean
    induction a generalizing b with
    | nil => cases b with
      | nil => rfl
      | cons q b => cases h1
    | cons p a ih =>
      cases b with
      | nil => cases h1
      | cons q b =>
        simp only [List.map_cons, List.cons.injEq] at h1
        have hp := ha p (by simp)
        have hq := hb q (by simp)
        have assoc : ∀ (k : List Char) (i n : Nat), k ++ ('_' :: 'T' :: (natText i ++ '#' :: natText n)) = (k ++ '_' :: 'T' :: natText i) ++ '#' :: natText n := by
          intro k i n; simp
        have e := h1.1
        rw [assoc, assoc] at e
        have no : ∀ (k : String) (i : Nat), Plain k → ∀ x ∈ k.toList ++ '_' :: 'T' :: natText i, ¬ x = '#' := by
          intro k i hk x hx e
          subst e
          simp only [List.mem_append, List.mem_cons] at hx
          rcases hx with hx | hx | hx | hx
          · exact hk.2 hx
          · cases hx
          · cases hx
          · exact natText_stop _ _ hx (by simp [Stop])
        obtain ⟨e1, -, e2⟩ := span_inj (· = '#') (no p.1 _ hp.1) (no q.1 _ hq.1) rfl rfl e
        obtain ⟨e3, e4⟩ := key_index e1
        simp only [List.map_cons, List.cons.injEq, Prod.mk.injEq]
        refine ⟨⟨String.toList_inj.1 e3, ?_, natText_inj e2⟩, ih b (fun x hx => ha x (by simp [hx])) (fun x hx => hb x (by simp [hx])) h1.2⟩
        have := hp.2; have := hq.2; omega
  · intro h
    have h1 : a.map (fun p => p.1.toList ++ ('_' :: 'T' :: (natText p.2.tidx.toNat ++ '#' :: natText p.2.data.length))) =
        b.map (fun p => p.1.toList ++ ('_' :: 'T' :: (natText p.2.tidx.toNat ++ '#' :: natText p.2.data.length))) := by
      have := congrArg (List.map fun q : String × Int × Nat => q.1.toList ++ ('_' :: 'T' :: (natText q.2.1.toNat ++ '#' :: natText q.2.2))) h
      simpa only [List.map_map, Function.comp_def] using this
    rw [dataset2Text, dataset2Text, h1]

example : dataset2Text ([("S", ⟨[1, 2], (), 0⟩), ("K", ⟨[1, 2, 3], (), 2⟩)] : Dataset Unit (List ℚ)) = "TEdataset2: S_T0#2, K_T2#3".toList := by
  decide +kernel
example : datasetText ([("S", ⟨[1, 2], (), 0⟩), ("K", ⟨[], (), 2⟩)] : Dataset Unit (List ℚ)) = "TEdataset: S#2, K#0".toList := by decide +kernel

end TEflow.Describe
