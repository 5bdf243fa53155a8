import Mathlib.Tactic
import Verif.Props.BandCfgSim
import Verif.Lemmas.UtilsDict

/-! # C109: `tef-band` from the configuration to the table -/

set_option linter.unusedSimpArgs false

namespace TEflow.BandCfg

open PyDict Utils Bandlib

variable {float : List Char → Except PyErr ℝ} {root : (ℝ → Except PyErr ℝ) → ℝ → Except PyErr ℝ}
variable {cfg : Config} {specify : List (String × List Char)} {entry : PyDict String (List Char)}

/-! ## Specification -/

/-- the properties `tef-band` can write -/
noncomputable def output (ls : List Line) (key : String) (EF T : ℝ) : Option ℝ :=
  if key = "EF" then some EF
  else if key = "T" then some T
  else if key = "Kbip" then some (bipolarAt ls EF T)
  else (TProp.all.find? fun p => p.name = key).map fun p => valueAt ls p EF T

/-- the properties a Fermi level can be found from -/
noncomputable def target (ls : List Line) (key : String) (EF T : ℝ) : Option ℝ :=
  if key = "Kbip" then some (bipolarAt ls EF T)
  else (TProp.all.find? fun p => p.name = key).map fun p => valueAt ls p EF T

/-- the properties asked for: those listed, or the eight default ones -/
def Asked (entry : PyDict String (List Char)) (props : List String) : Prop :=
  (get? entry "properties" = none ∧ props = ["T", "EF", "N", "C", "S", "PF", "L", "Ke"]) ∨
    ∃ t, get? entry "properties" = some t ∧ props.map String.toList = parseList t

/-- two sequences side by side; a single value serves for all of the other -/
def Paired {α β : Type} (a : List α) (b : List β) (pts : List (α × β)) : Prop :=
  (a.length = b.length ∧ pts = a.zip b) ∨ (∃ x, a = [x] ∧ pts = b.map fun y => (x, y)) ∨ ∃ y, b = [y] ∧ pts = a.map fun x => (x, y)

/-- the bands, offsets, and signs of the configuration: one offset (0 if none are given) and one type for every band -/
structure Setup (float : List Char → Except PyErr ℝ) (cfg : Config) (entry : PyDict String (List Char)) (bands : List BandObj)
    (signs deltas : List ℝ) : Prop where
  readBands : ∃ t, get? entry "bands" = some t ∧ List.Forall₂ (fun name b => parseBand float cfg name = .ok b) (parseList t) bands
  readDeltas : (get? entry "deltas" = none ∧ deltas = List.replicate bands.length 0) ∨
    ∃ t, get? entry "deltas" = some t ∧ parseListWith float t = .ok deltas
  oneOffset : deltas.length = bands.length
  readTypes : ∃ ts, TypesUsed bands.length deltas ((get? entry "btypes").map parseList) ts ∧ List.Forall₂ TypeSign ts signs
  oneSign : signs.length = bands.length

/-- the points of the configuration: Fermi levels given, or found from data `D @ property` by the root finder, started at `initial`
(0 if it is not given), for the reduced Fermi level `x`, `E_F = x k_B T` -/
inductive Points (float : List Char → Except PyErr ℝ) (root : (ℝ → Except PyErr ℝ) → ℝ → Except PyErr ℝ) (ls : List Line)
    (entry : PyDict String (List Char)) (pts : List (ℝ × ℝ)) : Prop where
  | given {tT tEF : List Char} {Ts EFs : List ℝ} (hT : get? entry "T" = some tT) (hTs : parseSeq float tT = .ok Ts)
      (hEF : get? entry "EF" = some tEF) (hat : '@' ∉ tEF) (hEFs : parseSeq float tEF = .ok EFs) (hp : Paired EFs Ts pts)
  | solved {tT a b : List Char} {Ts ref : List ℝ} {data : List (ℝ × ℝ)} {init : ℝ} (hT : get? entry "T" = some tT)
      (hTs : parseSeq float tT = .ok Ts) (hEF : get? entry "EF" = some (a ++ '@' :: b)) (ha : '@' ∉ a) (hb : '@' ∉ b)
      (href : parseSeq float (Loader.strip a) = .ok ref) (hp : Paired ref Ts data) (hne : data ≠ [])
      (hi : (get? entry "initial" = none ∧ init = 0) ∨ ∃ t, get? entry "initial" = some t ∧ float t = .ok init)
      (hs : List.Forall₂ (fun (d q : ℝ × ℝ) => q.2 = d.2 ∧ ∃ (f : ℝ → ℝ) (x : ℝ),
        (∀ y, target ls (String.ofList (Loader.strip b)) (y * kB * d.2) d.2 = some (f y)) ∧
        root (fun y => .ok (f y - d.1)) init = .ok x ∧ q.1 = x * kB * d.2) data pts)

/-! ## Lemmas -/

theorem mapM_forall₂ {α β ε : Type} {f : α → Except ε β} {l : List α} {r : List β}
    (h : List.Forall₂ (fun a b => f a = .ok b) l r) : l.mapM f = .ok r := by
  induction h with
  | nil => rfl
  | cons h _ ih =>
    rw [List.mapM_cons, h, ih]
    rfl

theorem mapM_exists {α β ε : Type} {f : α → Except ε β} {P : α → β → Prop} {l : List α} (h : ∀ a ∈ l, ∃ b, f a = .ok b ∧ P a b) :
    ∃ r, l.mapM f = .ok r ∧ List.Forall₂ P l r := by
  induction l with
  | nil => exact ⟨[], rfl, .nil⟩
  | cons a l ih =>
    obtain ⟨b, h1, h2⟩ := h a (by simp)
    obtain ⟨r, h3, h4⟩ := ih fun a ha => h a (by simp [ha])
    exact ⟨b :: r, by rw [List.mapM_cons, h1, h3]; rfl, .cons h2 h4⟩

theorem broadcast_paired {α β : Type} {a : List α} {b : List β} {pts : List (α × β)} (h : Paired a b pts) :
    broadcast a b = .ok pts := by
  unfold broadcast
  rcases h with ⟨h1, rfl⟩ | ⟨x, rfl, rfl⟩ | ⟨y, rfl, rfl⟩
  · rw [if_pos h1]
  · split
    · rename_i h
      obtain ⟨y, rfl⟩ := List.length_eq_one_iff.1 h.symm
      rfl
    · rfl
  · split
    · rename_i h
      obtain ⟨x, rfl⟩ := List.length_eq_one_iff.1 h
      rfl
    · match a with
      | [] => rfl
      | [x] => rfl
      | x :: x' :: a => rfl

theorem broadcast_not {α β : Type} {a : List α} {b : List β} (h : ∀ pts, ¬ Paired a b pts) : broadcast a b = .error .valueError := by
  unfold broadcast
  split
  · rename_i hl
    exact absurd (Or.inl ⟨hl, rfl⟩) (h _)
  · split
    · exact absurd (Or.inr (Or.inl ⟨_, rfl, rfl⟩)) (h _)
    · exact absurd (Or.inr (Or.inr ⟨_, rfl, rfl⟩)) (h _)
    · rfl

theorem keys_update_pairs {κ ν : Type} [DecidableEq κ] (f : κ → ν) (ks : List κ) : ∀ d : PyDict κ ν,
    keys (update d (ks.map fun k => (k, f k))) = keys d ++ (ks.filter fun k => !decide (k ∈ keys d)).eraseDups := by
  induction ks with
  | nil => intro d; simp [update_nil]
  | cons k ks ih =>
    intro d
    rw [List.map_cons, update_cons, ih, keys_set]
    by_cases h : k ∈ keys d
    · simp only [h, if_true, List.filter_cons, decide_true, Bool.not_true, Bool.false_eq_true, if_false]
    · simp only [h, if_false, List.filter_cons, decide_false, Bool.not_false, if_true, List.eraseDups_cons, List.append_assoc,
        List.singleton_append, List.filter_filter]
      congr 3
      refine List.filter_congr fun x _ => ?_
      by_cases hx : x = k <;> simp [hx]

theorem keys_ofPairs_eraseDups {κ ν : Type} [DecidableEq κ] (f : κ → ν) (ks : List κ) :
    keys (ofPairs (ks.map fun k => (k, f k))) = ks.eraseDups := by
  have := keys_update_pairs f ks []
  simpa [ofPairs] using this

variable {bands : List BandObj} {signs deltas : List ℝ}

theorem setSigns_range {n : Nat} (w : Heap ℝ) (ss : List ℝ) (h : ss.length ≤ n) (i : Nat) :
    (∀ h' : i < ss.length, setSigns w ((List.range n).zip ss) i = { w i with sign := ss[i] }) ∧
    (¬ i < ss.length → setSigns w ((List.range n).zip ss) i = w i) := by
  have hz : ∀ k, ∀ ss : List ℝ, ss.length ≤ k → (List.range k).zip ss = (List.range ss.length).zip ss := by
    intro k ss hk
    rw [List.zip_eq_zip_take_min, List.zip_eq_zip_take_min (l₁ := List.range ss.length)]
    simp [hk, List.take_range]
  rw [hz n ss h]
  have hm : ((List.range ss.length).zip ss).map Prod.fst = List.range ss.length := List.map_fst_zip (by simp)
  obtain ⟨h1, h2⟩ := setSigns_spec ((List.range ss.length).zip ss) w i
  refine ⟨fun h' => h2 _ ?_, fun h' => h1 (by rw [hm]; simpa using h')⟩
  have hf : ((List.range ss.length).zip ss).filter (fun x => x.1 = i) = [(i, ss[i])] := by
    clear h1 h2 hm hz h
    induction ss using List.reverseRecOn with
    | nil => simp at h'
    | append_singleton ss s ih =>
      have e : (List.range (ss ++ [s]).length).zip (ss ++ [s]) = (List.range ss.length).zip ss ++ [(ss.length, s)] := by
        rw [List.length_append, List.length_singleton, List.range_succ, List.zip_append (by simp)]
        rfl
      rw [e, List.filter_append]
      by_cases hi : i < ss.length
      · rw [ih hi]
        simp [List.getElem_append_left hi, show ¬ (ss.length = i) by omega]
      · have hi' : i = ss.length := by simp at h'; omega
        subst hi'
        have : ((List.range ss.length).zip ss).filter (fun x => decide (x.1 = ss.length)) = [] := by
          rw [List.filter_eq_nil_iff]
          intro x hx
          have := (List.of_mem_zip (a := x.1) (b := x.2) hx).1
          simp at this ⊢
          omega
        rw [this]
        simp
  rw [hf]
  rfl

theorem typeSign_pm {t : List Char} {s : ℝ} (h : TypeSign t s) : s = 1 ∨ s = -1 := by
  rcases h with ⟨_, h⟩ | ⟨_, h⟩ <;> simp [h]

theorem Setup.bandsOf (h : Setup float cfg entry bands signs deltas) : BandCfg.bandsOf float cfg entry = .ok bands := by
  obtain ⟨t, h1, h2⟩ := h.readBands
  unfold BandCfg.bandsOf
  rw [h1]
  exact mapM_forall₂ h2

theorem Setup.pm (h : Setup float cfg entry bands signs deltas) : ∀ s ∈ signs, s = 1 ∨ s = -1 := by
  obtain ⟨ts, _, h2⟩ := h.readTypes
  intro s hs
  obtain ⟨i, hi, rfl⟩ := List.getElem_of_mem hs
  exact typeSign_pm ((List.forall₂_iff_get.1 h2).2 i (by rw [h2.length_eq]; exact hi) hi)

theorem modelOf_stands {ts : List (List Char)} (hd : deltasOf float bands.length entry = .ok deltas)
    (hl : deltas.length = bands.length) (hu : TypesUsed bands.length deltas ((get? entry "btypes").map parseList) ts)
    (hs : List.Forall₂ TypeSign ts signs) (hn : signs.length ≤ bands.length) (hg : ts = [] → ∃ l, guessBtypes deltas = .ok l) :
    ∃ m w, BandCfg.modelOf float bands entry = .ok (m, w) ∧
      Stands m w (bands.take signs.length) signs (deltas.take signs.length) := by
  have hlen : ts.length = signs.length := hs.length_eq
  have hlog : logTypes deltas ((get? entry "btypes").map parseList) = .ok () := by
    cases hb : (get? entry "btypes").map parseList with
    | none =>
      rw [hb] at hu
      have : guessBtypes deltas = .ok ts := hu
      simp only [logTypes, this, Except.map]
    | some l =>
      rw [hb] at hu
      cases l with
      | cons a l => rfl
      | nil =>
        rcases hu with ⟨h1, _⟩ | ⟨_, rfl⟩
        · simp at h1
        · obtain ⟨l, hl⟩ := hg rfl
          simp [logTypes, hl, Except.map]
  obtain ⟨m, w', c1, c2, c3, c4, c5⟩ := C72_construct (heapOf bands) (List.range bands.length) deltas
    ((get? entry "btypes").map parseList) ts signs (by simp [hl]) (by simpa using hu) hs
  refine ⟨m, w', ?_, ?_⟩
  · unfold BandCfg.modelOf
    simp only [hd, hlog, c1]
  · have hset := setSigns_range (heapOf bands) signs hn
    refine ⟨?_, ?_, c4, by simp [hn], by simp [hl], fun i hi => ?_, fun i => ?_⟩
    · rw [c2, hlen, List.take_range, List.length_take]
    · rw [c3, hlen]
    · have hi' : i < signs.length := by simp at hi; omega
      rw [c5, (hset i).1 hi']
      simp only [heapOf, List.getElem?_eq_getElem (show i < bands.length by omega), BandFns.leaf, List.getElem_take]
    · rw [c5]
      have hc : (heapOf bands i).cache = none := by
        unfold heapOf
        split <;> rfl
      by_cases hi : i < signs.length
      · rw [(hset i).1 hi]
        exact hc
      · rw [(hset i).2 hi]
        exact hc

theorem deltasOf_read {n : Nat} (h : (get? entry "deltas" = none ∧ deltas = List.replicate n 0) ∨
    ∃ t, get? entry "deltas" = some t ∧ parseListWith float t = .ok deltas) : deltasOf float n entry = .ok deltas := by
  unfold deltasOf
  rcases h with ⟨h1, h2⟩ | ⟨t, h1, h2⟩
  · rw [h1, h2]
  · rw [h1]
    exact h2

theorem Setup.modelOf (h : Setup float cfg entry bands signs deltas) :
    ∃ m w, BandCfg.modelOf float bands entry = .ok (m, w) ∧ Stands m w bands signs deltas := by
  obtain ⟨ts, hu, hs⟩ := h.readTypes
  obtain ⟨m, w, h1, h2⟩ := modelOf_stands (deltasOf_read h.readDeltas) h.oneOffset hu hs (le_of_eq h.oneSign) (by
    rintro rfl
    have h0 : signs.length = 0 := hs.length_eq.symm
    have : deltas = [] := List.length_eq_zero_iff.1 (by rw [h.oneOffset, ← h.oneSign, h0])
    subst this
    exact ⟨[], by simp [guessBtypes]⟩)
  rw [List.take_of_length_le (by rw [h.oneSign]), List.take_of_length_le (by rw [h.oneSign, h.oneOffset])] at h2
  exact ⟨m, w, h1, h2⟩

theorem Stands.solverProp {m : Multi ℝ} {w : Heap ℝ} (h : Stands m w bands signs deltas) (hh : HallBands bands)
    (hs : ∀ s ∈ signs, s = 1 ∨ s = -1) {name : List Char} {EF T v : ℝ}
    (ht : target (linesOf bands signs deltas) (String.ofList name) EF T = some v) :
    BandCfg.solverProp m w name EF T = .ok v := by
  unfold target at ht
  unfold BandCfg.solverProp
  by_cases hk : name = "Kbip".toList
  · rw [if_pos hk]
    rw [if_pos (by rw [hk, String.ofList_toList])] at ht
    rw [h.kbip hs]
    simpa using ht
  · rw [if_neg hk]
    rw [if_neg (by intro e; exact hk (by rw [← e, String.toList_ofList]))] at ht
    cases hf : TProp.all.find? fun p => p.name = String.ofList name with
    | none => rw [hf] at ht; simp at ht
    | some p =>
      rw [hf] at ht
      simp only [Option.map_some, Option.some.injEq] at ht
      simp only [h.prop hh, needNum, ht]

theorem takeWhile_at (a b : List Char) (ha : '@' ∉ a) : (a ++ '@' :: b).takeWhile (fun c => decide (c ≠ '@')) = a := by
  induction a with
  | nil => simp
  | cons c a ih =>
    have hc : c ≠ '@' := fun h => ha (by simp [h])
    simp only [List.cons_append, List.takeWhile_cons, hc, ne_eq, not_false_eq_true, decide_true, if_true]
    rw [ih fun h => ha (by simp [h])]

theorem refText_eq (a b : List Char) (ha : '@' ∉ a) : refText (a ++ '@' :: b) = Loader.strip a := by
  unfold refText
  rw [takeWhile_at a b ha]

theorem solverText_eq (a b : List Char) (hb : '@' ∉ b) : solverText (a ++ '@' :: b) = Loader.strip b := by
  unfold solverText
  have e : (a ++ '@' :: b).reverse = b.reverse ++ '@' :: a.reverse := by simp
  rw [e, takeWhile_at _ _ (by simpa using hb), List.reverse_reverse]

theorem Points.pointsOf {m : Multi ℝ} {w : Heap ℝ} (h : Stands m w bands signs deltas) (hh : HallBands bands)
    (hs : ∀ s ∈ signs, s = 1 ∨ s = -1) {pts : List (ℝ × ℝ)} (hp : Points float root (linesOf bands signs deltas) entry pts) :
    BandCfg.pointsOf float (solveEF root m w) entry = .ok (some pts) := by
  unfold BandCfg.pointsOf
  rcases hp with ⟨hT, hTs, hEF, hat, hEFs, hp⟩ | ⟨hT, hTs, hEF, ha, hb, href, hp, hne, hi, hsol⟩
  · simp only [hT, hTs, hEF, hat, if_false, hEFs, broadcast_paired hp, Except.map]
  · rename_i a b _ _ data init
    have hini : initialOf float entry = .ok init := by
      unfold initialOf
      rcases hi with ⟨h1, h2⟩ | ⟨t, h1, h2⟩
      · rw [h1, h2]
      · rw [h1]
        exact h2
    have hmap : data.mapM (fun p => solveEF root m w (Loader.strip b) init p.1 p.2) = .ok (pts.map Prod.fst) := by
      refine mapM_forall₂ ?_
      rw [List.forall₂_map_right_iff]
      refine hsol.imp ?_
      rintro d q ⟨_, f, x, h1, h2, h3⟩
      unfold solveEF
      have e : (fun x => (BandCfg.solverProp m w (Loader.strip b) (x * kB * d.2) d.2).map fun y => y - d.1) =
          fun y => Except.ok (f y - d.1) := by
        funext y
        rw [h.solverProp hh hs (h1 y)]
        rfl
      rw [e, h2, h3]
      rfl
    have hz : (pts.map Prod.fst).zip (data.map Prod.snd) = pts := by
      clear hne hmap hp
      induction hsol with
      | nil => rfl
      | cons h1 _ ih =>
        simp only [List.map_cons, List.zip_cons_cons, ih, List.cons.injEq, and_true]
        rw [← h1.1]
    simp only [hT, hTs, hEF, List.mem_append, List.mem_cons, true_or, or_true, if_true, BandCfg.solved, refText_eq _ _ ha,
      solverText_eq _ _ hb, href, broadcast_paired hp, hini, hne, if_false, hmap, hz, Except.map]

theorem Stands.item {m : Multi ℝ} {w : Heap ℝ} (h : Stands m w bands signs deltas) (hh : HallBands bands)
    (hs : ∀ s ∈ signs, s = 1 ∨ s = -1) (q : ℝ × ℝ) : ∃ c, BandCfg.compileAt m w q = .ok c ∧
      ∀ key, c.item key = match output (linesOf bands signs deltas) key q.1 q.2 with
        | some v => .ok v
        | none => .error .keyError := by
  obtain ⟨c, h1, h2, h3, h4, h5, h6⟩ := h.compileAt hh hs q
  refine ⟨c, h1, fun key => ?_⟩
  unfold output
  by_cases k1 : key = "EF"
  · subst k1; simp only [if_true, h2]
  by_cases k2 : key = "T"
  · subst k2; simp only [show ¬ ("T" = "EF") by decide, if_false, if_true, h3]
  by_cases k3 : key = "Kbip"
  · subst k3; simp only [show ¬ ("Kbip" = "EF") by decide, show ¬ ("Kbip" = "T") by decide, if_false, if_true, h5]
  simp only [k1, k2, k3, if_false]
  cases hf : TProp.all.find? fun p => p.name = key with
  | none =>
    rw [List.find?_eq_none] at hf
    exact h6 key k1 k2 k3 fun p => by simpa using hf p (by cases p <;> decide)
  | some p =>
    have := List.find?_some hf
    simp only [decide_eq_true_eq] at this
    rw [← this]
    exact h4 p

theorem Asked.eq {props : List String} (h : Asked entry props) : propsOf entry = props := by
  unfold propsOf
  rcases h with ⟨h1, h2⟩ | ⟨t, h1, h2⟩
  · rw [h1, h2]
  · simp only [h1, ← h2]
    simp [List.map_map, Function.comp_def]

/-- the table of a model: every property asked for with its values at the points -/
def IsTable (ls : List Line) (props : List String) (pts : List (ℝ × ℝ)) (table : PyDict String (List ℝ)) : Prop :=
  keys table = props.eraseDups ∧
    ∀ k ∈ props, ∃ col, get? table k = some col ∧ List.Forall₂ (fun (q : ℝ × ℝ) v => output ls k q.1 q.2 = some v) pts col

theorem Stands.simulate {m : Multi ℝ} {w : Heap ℝ} {bands0 : List BandObj} {pts : List (ℝ × ℝ)}
    (he : entryOf cfg specify = .ok entry) (hb : BandCfg.bandsOf float cfg entry = .ok bands0)
    (hm : BandCfg.modelOf float bands0 entry = .ok (m, w)) (hst : Stands m w bands signs deltas)
    (hpm : ∀ s ∈ signs, s = 1 ∨ s = -1) (hh : HallBands bands)
    (hp : Points float root (linesOf bands signs deltas) entry pts) :
    ((∀ k ∈ propsOf entry, ∀ EF T, (output (linesOf bands signs deltas) k EF T).isSome) →
      ∃ table, BandCfg.simulate float root cfg specify = .ok table ∧
        IsTable (linesOf bands signs deltas) (propsOf entry) pts table) ∧
    (pts ≠ [] → (∃ k ∈ propsOf entry, ∀ EF T, output (linesOf bands signs deltas) k EF T = none) →
      BandCfg.simulate float root cfg specify = .error .keyError) := by
  obtain ⟨cs, hc1, hc2⟩ := mapM_exists (fun q (_ : q ∈ pts) => hst.item hh hpm q)
  have hpts := hp.pointsOf hst hh hpm
  have hparse : parseBands float root cfg specify = .ok (some (cs, propsOf entry)) := by
    unfold parseBands
    simp only [he, hb, hm, hpts, hc1]
  let f : String → List ℝ := fun k => pts.map fun q => (output (linesOf bands signs deltas) k q.1 q.2).getD 0
  have hcol : ∀ k, (∀ EF T, (output (linesOf bands signs deltas) k EF T).isSome) → columnOf cs k = .ok (k, f k) := by
    intro k hk
    unfold columnOf
    have : cs.mapM (fun c => c.item k) = .ok (f k) := by
      refine mapM_forall₂ ?_
      simp only [f]
      rw [List.forall₂_map_right_iff]
      refine (List.Forall₂.flip hc2).imp fun c q h => ?_
      obtain ⟨v, hv⟩ := Option.isSome_iff_exists.1 (hk q.1 q.2)
      rw [h k, hv]
      rfl
    rw [this]
  constructor
  · intro hk
    have hcols : (propsOf entry).mapM (columnOf cs) = .ok ((propsOf entry).map fun k => (k, f k)) := by
      refine mapM_forall₂ ?_
      rw [List.forall₂_map_right_iff, List.forall₂_same]
      exact fun k hk' => hcol k (hk k hk')
    refine ⟨ofPairs ((propsOf entry).map fun k => (k, f k)), ?_, keys_ofPairs_eraseDups f _, fun k hk' => ⟨f k, ?_, ?_⟩⟩
    · unfold BandCfg.simulate
      simp only [hparse, hcols]
    · exact get?_ofPairs_map f _ k hk'
    · simp only [f]
      rw [List.forall₂_map_right_iff, List.forall₂_same]
      intro q _
      obtain ⟨v, hv⟩ := Option.isSome_iff_exists.1 (hk k hk' q.1 q.2)
      rw [hv]
      rfl
  · intro hne hex
    have hbad : ∀ k, (∀ EF T, output (linesOf bands signs deltas) k EF T = none) → columnOf cs k = .error .keyError := by
      intro k hk
      unfold columnOf
      cases hc2 with
      | nil => exact absurd rfl hne
      | cons h _ =>
        rw [List.mapM_cons, h k, hk]
        rfl
    have hor : ∀ k, (∀ EF T, (output (linesOf bands signs deltas) k EF T).isSome) ∨
        ∀ EF T, output (linesOf bands signs deltas) k EF T = none := by
      intro k
      unfold output
      by_cases k1 : k = "EF"
      · left; simp [k1]
      by_cases k2 : k = "T"
      · left; simp [k2]
      by_cases k3 : k = "Kbip"
      · left; simp [k3]
      simp only [k1, k2, k3, if_false]
      cases TProp.all.find? fun p => p.name = k with
      | none => right; intros; rfl
      | some p => left; intros; rfl
    have herr : ∀ l : List String, (∃ k ∈ l, ∀ EF T, output (linesOf bands signs deltas) k EF T = none) →
        l.mapM (columnOf cs) = .error .keyError := by
      intro l
      induction l with
      | nil => rintro ⟨k, hk, _⟩; simp at hk
      | cons k l ih =>
        rintro ⟨k', hk', hn⟩
        rw [List.mapM_cons]
        rcases hor k with h | h
        · rw [hcol k h]
          have : ∃ k ∈ l, ∀ EF T, output (linesOf bands signs deltas) k EF T = none := by
            rcases List.mem_cons.1 hk' with rfl | hm
            · have := h 0 0
              rw [hn] at this
              simp at this
            · exact ⟨k', hm, hn⟩
          simp only [bind, Except.bind, ih this]
        · rw [hbad k h]
          rfl
    unfold BandCfg.simulate
    simp only [hparse, herr _ hex]

/-! ## The simulation -/

/-- **C109** `tef-band` writes, for every property asked for (the eight default ones if none are), the column of its values at the
points of the configuration: the sums over the bands, each shifted by its offset and counted with the sign of its type. -/
theorem C109_simulation {pts : List (ℝ × ℝ)} {props : List String} (he : entryOf cfg specify = .ok entry) (ha : Asked entry props)
    (hset : Setup float cfg entry bands signs deltas) (hh : HallBands bands)
    (hp : Points float root (linesOf bands signs deltas) entry pts)
    (hk : ∀ k ∈ props, ∀ EF T, (output (linesOf bands signs deltas) k EF T).isSome) :
    ∃ table, simulate float root cfg specify = .ok table ∧ IsTable (linesOf bands signs deltas) props pts table := by
  rw [← ha.eq] at hk ⊢
  obtain ⟨m, w, hm, hst⟩ := hset.modelOf
  exact (hst.simulate he hset.bandsOf hm hset.pm hh hp).1 hk

/-- **C109** A property that is not known (and at least one point): `KeyError`, no table. -/
theorem C109_unknown_property {pts : List (ℝ × ℝ)} {props : List String} (he : entryOf cfg specify = .ok entry) (ha : Asked entry props)
    (hset : Setup float cfg entry bands signs deltas) (hh : HallBands bands)
    (hp : Points float root (linesOf bands signs deltas) entry pts) (hne : pts ≠ [])
    (hk : ∃ k ∈ props, k ≠ "EF" ∧ k ≠ "T" ∧ k ≠ "Kbip" ∧ ∀ p : TProp, p.name ≠ k) :
    simulate float root cfg specify = .error .keyError := by
  rw [← ha.eq] at hk
  obtain ⟨m, w, hm, hst⟩ := hset.modelOf
  obtain ⟨k, hk, k1, k2, k3, k4⟩ := hk
  refine (hst.simulate he hset.bandsOf hm hset.pm hh hp).2 hne ⟨k, hk, fun EF T => ?_⟩
  unfold output
  have : TProp.all.find? (fun r => r.name = k) = none := by
    rw [List.find?_eq_none]
    intro r _
    simpa using k4 r
  simp only [k1, k2, k3, if_false, this, Option.map_none]

/-- **C109** Fewer types than bands (but not just one): the bands behind the end of the list are left out silently.  With a blank
list of types there is no band at all, and the table is that of a model without bands (no carriers at any Fermi level). -/
theorem C109_dropped_bands {pts : List (ℝ × ℝ)} {props : List String} {t tb : List Char} (he : entryOf cfg specify = .ok entry) (ha : Asked entry props)
    (hb : get? entry "bands" = some tb ∧ List.Forall₂ (fun name b => parseBand float cfg name = .ok b) (parseList tb) bands)
    (hd : (get? entry "deltas" = none ∧ deltas = List.replicate bands.length 0) ∨
      ∃ t, get? entry "deltas" = some t ∧ parseListWith float t = .ok deltas)
    (hl : deltas.length = bands.length) (ht : get? entry "btypes" = some t) (hs : List.Forall₂ TypeSign (parseList t) signs)
    (h1 : (parseList t).length ≠ 1) (hn : (parseList t).length < bands.length) (hblank : parseList t = [] → ¬ Ambiguous deltas)
    (hh : HallBands bands)
    (hp : Points float root (linesOf (bands.take signs.length) signs (deltas.take signs.length)) entry pts)
    (hk : ∀ k ∈ props, ∀ EF T, (output (linesOf (bands.take signs.length) signs (deltas.take signs.length)) k EF T).isSome) :
    ∃ table, simulate float root cfg specify = .ok table ∧
      IsTable (linesOf (bands.take signs.length) signs (deltas.take signs.length)) props pts table := by
  have hbands : BandCfg.bandsOf float cfg entry = .ok bands := by
    unfold BandCfg.bandsOf
    rw [hb.1]
    exact mapM_forall₂ hb.2
  rw [← ha.eq] at hk ⊢
  obtain ⟨m, w, hm, hst⟩ := modelOf_stands (ts := parseList t) (deltasOf_read hd) hl (by
    rw [ht]; exact Or.inr ⟨h1, rfl⟩) hs (by rw [← hs.length_eq]; omega) (fun h => by
      obtain ⟨l, h1, _⟩ := (C71_guess_btypes deltas).2 (hblank h)
      exact ⟨l, h1⟩)
  refine (hst.simulate he hbands hm ?_ (fun b hb => hh b (List.mem_of_mem_take hb)) hp).1 hk
  intro s hs'
  obtain ⟨i, hi, rfl⟩ := List.getElem_of_mem hs'
  exact typeSign_pm ((List.forall₂_iff_get.1 hs).2 i (by rw [hs.length_eq]; exact hi) hi)

/-- **C109** The table of a model without bands: no carriers and no conduction at any point. -/
theorem C109_no_bands_table (p : TProp) (EF T : ℝ) (hp : p = .N ∨ p = .C ∨ p = .CS ∨ p = .K_0 ∨ p = .K_1 ∨ p = .K_2) :
    output [] p.name EF T = some 0 := by
  have h : output [] p.name EF T = some (valueAt [] p EF T) := by cases p <;> rfl
  rw [h]
  rcases hp with rfl | rfl | rfl | rfl | rfl | rfl <;> simp [valueAt, quantity, totalN, totalK]

/-! ## Incomplete or impossible input -/

/-- **C109** Settings on the command line take precedence over the section `entry` of the file; without that section nothing is
computed. -/
theorem C109_settings (items : List (String × List Char)) :
    (get? cfg "entry".toList = some items → ∃ entry, entryOf cfg specify = .ok entry ∧
      ∀ k, get? entry k = (get? specify.reverse k).or (get? items k)) ∧
    (get? cfg "entry".toList = none → simulate float root cfg specify = .error .keyError) := by
  constructor
  · intro h
    refine ⟨update items specify, by unfold entryOf; rw [h], fun k => ?_⟩
    rw [get?_update]
  · intro h
    unfold simulate parseBands entryOf
    simp only [h]

/-- **C109** No bands named: `ValueError`. -/
theorem C109_no_bands (he : entryOf cfg specify = .ok entry) (h : get? entry "bands" = none) :
    simulate float root cfg specify = .error .valueError := by
  unfold simulate parseBands bandsOf
  simp only [he, h]

/-- **C109** The offsets can be left out only together with types: with neither (or blank types), every configuration with a band
fails with `ValueError`, although 0 is the default offset. -/
theorem C109_default_offsets {tb : List Char} (he : entryOf cfg specify = .ok entry)
    (hb : get? entry "bands" = some tb ∧ List.Forall₂ (fun name b => parseBand float cfg name = .ok b) (parseList tb) bands)
    (hne : bands ≠ []) (hd : get? entry "deltas" = none)
    (ht : get? entry "btypes" = none ∨ ∃ t, get? entry "btypes" = some t ∧ parseList t = []) :
    simulate float root cfg specify = .error .valueError := by
  have hbands : BandCfg.bandsOf float cfg entry = .ok bands := by
    unfold BandCfg.bandsOf
    rw [hb.1]
    exact mapM_forall₂ hb.2
  obtain ⟨n, hn⟩ := Nat.exists_eq_succ_of_ne_zero (fun h => hne (List.length_eq_zero_iff.1 h))
  have hg : guessBtypes (List.replicate bands.length (0 : ℝ)) = .error .valueError := by
    refine (C71_guess_btypes _).1 ⟨⟨0, by rw [hn, List.replicate_succ]; simp, by norm_num [NearZero]⟩, ⟨?_, ?_⟩⟩
    · rintro ⟨d, hd, h⟩
      rw [List.eq_of_mem_replicate hd] at h
      norm_num [ClearlyPos] at h
    · rintro ⟨d, hd, h⟩
      rw [List.eq_of_mem_replicate hd] at h
      norm_num [ClearlyNeg] at h
  have hlog : logTypes (List.replicate bands.length (0 : ℝ)) ((get? entry "btypes").map parseList) = .error .valueError := by
    rcases ht with h | ⟨t, h, h'⟩
    · rw [h]
      simp only [Option.map_none, logTypes, hg, Except.map]
    · rw [h]
      simp only [Option.map_some, h', logTypes, hg, Except.map]
  unfold simulate parseBands modelOf deltasOf
  simp only [he, hbands, hd, hlog]

/-- **C109** Without temperatures, or without Fermi levels, the run stops with `RuntimeError`. -/
theorem C109_incomplete (he : entryOf cfg specify = .ok entry) (hset : Setup float cfg entry bands signs deltas)
    (h : get? entry "T" = none ∨ ∃ tT Ts, get? entry "T" = some tT ∧ parseSeq float tT = .ok Ts ∧ get? entry "EF" = none) :
    simulate float root cfg specify = .error .runtimeError := by
  obtain ⟨m, w, hm, hst⟩ := hset.modelOf
  unfold simulate parseBands pointsOf
  rcases h with h | ⟨tT, Ts, h1, h2, h3⟩
  · simp only [he, hset.bandsOf, hm, h]
  · simp only [he, hset.bandsOf, hm, h1, h2, h3]

/-- **C109** Fermi levels and temperatures that do not go together (different numbers, neither of them one): `ValueError`. -/
theorem C109_mismatch {tT tEF : List Char} {Ts EFs : List ℝ} (he : entryOf cfg specify = .ok entry)
    (hset : Setup float cfg entry bands signs deltas) (hT : get? entry "T" = some tT) (hTs : parseSeq float tT = .ok Ts)
    (hEF : get? entry "EF" = some tEF) (hat : '@' ∉ tEF) (hEFs : parseSeq float tEF = .ok EFs)
    (hl : EFs.length ≠ Ts.length) (h1 : EFs.length ≠ 1) (h2 : Ts.length ≠ 1) :
    simulate float root cfg specify = .error .valueError := by
  obtain ⟨m, w, hm, hst⟩ := hset.modelOf
  have hbr : broadcast EFs Ts = .error .valueError := broadcast_not (by
    rintro pts (⟨h, _⟩ | ⟨x, rfl, _⟩ | ⟨y, rfl, _⟩)
    · exact hl h
    · exact h1 rfl
    · exact h2 rfl)
  unfold simulate parseBands pointsOf
  simp only [he, hset.bandsOf, hm, hT, hTs, hEF, hat, if_false, hEFs, hbr, Except.map]

/-- **C109** Reference data: as soon as the root finder fails at one of them, the run fails with `RuntimeError`; data that do not go
together with the temperatures are a `ValueError`. -/
theorem C109_solver_fails {tT a b : List Char} {Ts ref : List ℝ} (he : entryOf cfg specify = .ok entry)
    (hset : Setup float cfg entry bands signs deltas) (hh : HallBands bands) (hT : get? entry "T" = some tT)
    (hTs : parseSeq float tT = .ok Ts) (hEF : get? entry "EF" = some (a ++ '@' :: b)) (ha : '@' ∉ a) (hb : '@' ∉ b)
    (href : parseSeq float (Loader.strip a) = .ok ref) :
    (ref.length ≠ Ts.length → ref.length ≠ 1 → Ts.length ≠ 1 → simulate float root cfg specify = .error .valueError) ∧
    ∀ (data : List (ℝ × ℝ)) (init : ℝ), Paired ref Ts data →
      ((get? entry "initial" = none ∧ init = 0) ∨ ∃ t, get? entry "initial" = some t ∧ float t = .ok init) →
      (∃ d ∈ data, ∃ (f : ℝ → ℝ) (e : PyErr),
        (∀ y, target (linesOf bands signs deltas) (String.ofList (Loader.strip b)) (y * kB * d.2) d.2 = some (f y)) ∧
        root (fun y => .ok (f y - d.1)) init = .error e) → simulate float root cfg specify = .error .runtimeError := by
  obtain ⟨m, w, hm, hst⟩ := hset.modelOf
  have hmem : '@' ∈ a ++ '@' :: b := by simp
  constructor
  · intro l1 l2 l3
    have hbr : broadcast ref Ts = .error .valueError := broadcast_not (by
      rintro pts (⟨h, _⟩ | ⟨x, rfl, _⟩ | ⟨y, rfl, _⟩)
      · exact l1 h
      · exact l2 rfl
      · exact l3 rfl)
    unfold simulate parseBands pointsOf
    simp only [he, hset.bandsOf, hm, hT, hTs, hEF, hmem, if_true, solved, refText_eq _ _ ha, href, hbr, Except.map]
  · rintro data init hp hi ⟨d, hd, f, e, h1, h2⟩
    have hini : initialOf float entry = .ok init := by
      unfold initialOf
      rcases hi with ⟨h1, h2⟩ | ⟨t, h1, h2⟩
      · rw [h1, h2]
      · rw [h1]
        exact h2
    have hne : data ≠ [] := List.ne_nil_of_mem hd
    have hsol : solveEF root m w (Loader.strip b) init d.1 d.2 = .error e := by
      unfold solveEF
      have e : (fun x => (BandCfg.solverProp m w (Loader.strip b) (x * kB * d.2) d.2).map fun y => y - d.1) =
          fun y => Except.ok (f y - d.1) := by
        funext y
        rw [hst.solverProp hh hset.pm (h1 y)]
        rfl
      rw [e, h2]
      rfl
    have hmap : ∃ e', data.mapM (fun p => solveEF root m w (Loader.strip b) init p.1 p.2) = .error e' := by
      clear hp hne
      induction data with
      | nil => simp at hd
      | cons c data ih =>
        rw [List.mapM_cons]
        rcases List.mem_cons.1 hd with rfl | hd
        · exact ⟨e, by rw [hsol]; rfl⟩
        · obtain ⟨e', he'⟩ := ih hd
          cases solveEF root m w (Loader.strip b) init c.1 c.2 with
          | error e'' => exact ⟨e'', rfl⟩
          | ok x => exact ⟨e', by simp only [bind, Except.bind, he']⟩
    obtain ⟨e', hmap⟩ := hmap
    unfold simulate parseBands pointsOf
    simp only [he, hset.bandsOf, hm, hT, hTs, hEF, hmem, if_true, solved, refText_eq _ _ ha, solverText_eq _ _ hb, href,
      broadcast_paired hp, hini, hne, if_false, hmap, Except.map]

/-- **C109** A configuration with a `LinearBand` cannot be computed: at the first point the run fails with `TypeError`, for lack of
a Hall function, whatever properties are asked for. -/
theorem C109_linear_fails {tT tEF : List Char} {Ts EFs : List ℝ} {pts : List (ℝ × ℝ)} (he : entryOf cfg specify = .ok entry)
    (hset : Setup float cfg entry bands signs deltas) (hlin : ∃ b, BandObj.lin b ∈ bands)
    (hT : get? entry "T" = some tT) (hTs : parseSeq float tT = .ok Ts)
    (hEF : get? entry "EF" = some tEF) (hat : '@' ∉ tEF) (hEFs : parseSeq float tEF = .ok EFs) (hp : Paired EFs Ts pts)
    (hne : pts ≠ []) : simulate float root cfg specify = .error .typeError := by
  obtain ⟨m, w, hm, hst⟩ := hset.modelOf
  have hpts : pointsOf float (solveEF root m w) entry = .ok (some pts) := by
    unfold pointsOf
    simp only [hT, hTs, hEF, hat, if_false, hEFs, broadcast_paired hp, Except.map]
  have hx : ∃ x ∈ m.ids.zip m.deltas, (w x.1).h = none := by
    obtain ⟨b, hb⟩ := hlin
    obtain ⟨i, hi, hb⟩ := List.getElem_of_mem hb
    have l2 := hst.len2
    have hz : i < (m.ids.zip m.deltas).length := by rw [hst.ids, hst.offsets]; simp; omega
    refine ⟨_, List.getElem_mem hz, ?_⟩
    have e : ((m.ids.zip m.deltas)[i]).1 = i := by simp [hst.ids]
    rw [e, hst.leaf i hi, hb]
    rfl
  have hc : ∀ q, compileAt m w q = .error .typeError := by
    intro q
    unfold compileAt
    rw [C67_no_hall m w q.1 q.2 2 hst.nodup hx]
  have hcs : pts.mapM (compileAt m w) = .error .typeError := by
    cases pts with
    | nil => exact absurd rfl hne
    | cons q pts => rw [List.mapM_cons, hc]; rfl
  unfold simulate parseBands
  simp only [he, hset.bandsOf, hm, hpts, hcs]

/-! ## Example: a conduction and a valence band at two Fermi levels -/

/-- `float` for a few texts -/
noncomputable def exFloat (t : List Char) : Except PyErr ℝ :=
  if t = "0.2".toList then .ok (1 / 5) else if t = "-0.2".toList then .ok (-1 / 5) else if t = "2".toList then .ok 2
  else if t = "300".toList then .ok 300 else if t = "0".toList then .ok 0 else .error .valueError

def exCfg : Config := [
  ("DEFAULT".toList, []),
  ("entry".toList, [("bands", "cb vb".toList), ("deltas", "0.2, -0.2".toList), ("T", "300".toList), ("EF", "0 0.2".toList),
    ("properties", "EF S Kbip".toList)]),
  ("cb.APSSPB".toList, [("m_d", "2".toList)]),
  ("vb.APSSKB".toList, [("Eg", "0.2".toList)])]

theorem exFloats : exFloat "0.2".toList = .ok (1 / 5) ∧ exFloat "-0.2".toList = .ok (-1 / 5) ∧ exFloat "2".toList = .ok 2 ∧
    exFloat "300".toList = .ok 300 ∧ exFloat "0".toList = .ok 0 := by
  unfold exFloat
  refine ⟨if_pos rfl, ?_, ?_, ?_, ?_⟩
  · rw [if_neg (by decide), if_pos rfl]
  · rw [if_neg (by decide), if_neg (by decide), if_pos rfl]
  · rw [if_neg (by decide), if_neg (by decide), if_neg (by decide), if_pos rfl]
  · rw [if_neg (by decide), if_neg (by decide), if_neg (by decide), if_neg (by decide), if_pos rfl]

noncomputable def exBands : List BandObj := [.spb ⟨2, 1, 1⟩, .skb ⟨1, 1, 1 / 5, 1⟩]

/-- its settings -/
def exEntry : PyDict String (List Char) := [("bands", "cb vb".toList), ("deltas", "0.2, -0.2".toList), ("T", "300".toList),
      ("EF", "0 0.2".toList), ("properties", "EF S Kbip".toList)]

theorem exSetup {entry : PyDict String (List Char)} (he : ∀ k, k ≠ "properties" → get? entry k = get? exEntry k) : Setup exFloat exCfg entry exBands [-1, 1] [1 / 5, -1 / 5] := by
  obtain ⟨f1, f2, f3, f4, f5⟩ := exFloats
  have b1 : parseBand exFloat exCfg "cb".toList = .ok (.spb ⟨2, 1, 1⟩) := by
    have h : SectionOf exCfg "cb".toList "APSSPB" [("m_d", "2".toList)] := ⟨by decide +kernel, by decide +kernel⟩
    rw [C109_APSSPB h (by
      intro k t hk
      simp only [List.mem_cons, List.not_mem_nil, or_false, Prod.mk.injEq] at hk
      obtain ⟨rfl, rfl⟩ := hk
      exact ⟨2, f3⟩)]
    have hg : givenOr exFloat [("m_d", "2".toList)] "m_d" 1 = 2 := by
      unfold givenOr given
      rw [show get? [("m_d", "2".toList)] "m_d" = some "2".toList by decide +kernel]
      simp only [f3, Option.getD_some]
    rw [hg]
    simp [givenOr, given, get?]
  have b2 : parseBand exFloat exCfg "vb".toList = .ok (.skb ⟨1, 1, 1 / 5, 1⟩) := by
    have h : SectionOf exCfg "vb".toList "APSSKB" [("Eg", "0.2".toList)] := ⟨by decide +kernel, by decide +kernel⟩
    have hg : givenOr exFloat [("Eg", "0.2".toList)] "Eg" 1 = 1 / 5 := by
      unfold givenOr given
      rw [show get? [("Eg", "0.2".toList)] "Eg" = some "0.2".toList by decide +kernel]
      simp only [f1, Option.getD_some]
    rw [(C109_APSSKB h (by
      intro k t hk
      simp only [List.mem_cons, List.not_mem_nil, or_false, Prod.mk.injEq] at hk
      obtain ⟨rfl, rfl⟩ := hk
      exact ⟨1 / 5, f1⟩)).1 (by rw [hg]; norm_num), hg]
    simp [givenOr, given, get?]
  refine ⟨⟨_, he _ (by decide), ?_⟩, .inr ⟨_, he _ (by decide), ?_⟩, rfl, ?_, rfl⟩
  · rw [show parseList "cb vb".toList = ["cb".toList, "vb".toList] by decide +kernel]
    exact .cons b1 (.cons b2 .nil)
  · unfold parseListWith
    rw [show (Re.split sepRe "0.2, -0.2".toList).filter (fun t => !t.isEmpty) = ["0.2".toList, "-0.2".toList] by decide +kernel]
    exact mapM_forall₂ (.cons f1 (.cons f2 .nil))
  · rw [he _ (by decide), show get? exEntry "btypes" = none from rfl]
    refine ⟨[['C'], ['V']], ?_, ?_⟩
    · obtain ⟨ts, h1, h2⟩ := (C71_guess_btypes [(1 / 5 : ℝ), -1 / 5]).2 (by
        rintro ⟨⟨d, hd, hz⟩, _⟩
        simp only [List.mem_cons, List.not_mem_nil, or_false] at hd
        rcases hd with rfl | rfl <;> norm_num [NearZero, abs_div, abs_of_pos] at hz)
      cases h2 with
      | cons a h2 =>
        cases h2 with
        | cons b h2 =>
          cases h2
          rw [a.1 (by norm_num [ClearlyPos]), b.2.1 (by norm_num [ClearlyNeg])] at h1
          exact h1
    · exact .cons (.inl ⟨⟨[], .inr rfl⟩, rfl⟩) (.cons (.inr ⟨⟨[], .inr rfl⟩, rfl⟩) .nil)

theorem exHall : HallBands exBands := by
  intro b hb
  simp only [exBands, List.mem_cons, List.not_mem_nil, or_false] at hb
  rcases hb with rfl | rfl <;> simp [BandObj.fns, Spb.fns, Skb.fns]

theorem exPoints {entry : PyDict String (List Char)} (he : ∀ k, k ≠ "properties" → get? entry k = get? exEntry k) :
    Points exFloat root (linesOf exBands [-1, 1] [1 / 5, -1 / 5]) entry [(0, 300), (1 / 5, 300)] := by
  obtain ⟨f1, f2, f3, f4, f5⟩ := exFloats
  refine .given (Ts := [300]) (EFs := [0, 1 / 5]) (he _ (by decide)) ?_ (he _ (by decide)) (by decide) ?_ (.inr (.inr ⟨300, rfl, rfl⟩))
  · unfold parseSeq
    rw [show (Re.split seqSepRe "300".toList).filter (fun t => !t.isEmpty) = ["300".toList] by decide +kernel]
    simp only [parseParts, parsePart, show (Re.split fieldRe "300".toList).filter (fun t => !t.isEmpty) = ["300".toList] by decide +kernel, f4]
    rfl
  · unfold parseSeq
    rw [show (Re.split seqSepRe "0 0.2".toList).filter (fun t => !t.isEmpty) = ["0".toList, "0.2".toList] by decide +kernel]
    simp only [parseParts, parsePart, show (Re.split fieldRe "0".toList).filter (fun t => !t.isEmpty) = ["0".toList] by decide +kernel,
      show (Re.split fieldRe "0.2".toList).filter (fun t => !t.isEmpty) = ["0.2".toList] by decide +kernel, f5, f1]
    rfl

example : ∃ table, simulate exFloat root exCfg [] = .ok table ∧
    IsTable (linesOf exBands [-1, 1] [1 / 5, -1 / 5]) ["EF", "S", "Kbip"] [(0, 300), (1 / 5, 300)] table := by
  have he : entryOf exCfg [] = .ok exEntry := by decide +kernel
  refine C109_simulation (bands := exBands) he (.inr ⟨_, rfl, by decide +kernel⟩) (exSetup fun _ _ => rfl) exHall (exPoints fun _ _ => rfl) ?_
  intro k hk EF T
  have : k ∈ ["EF", "S", "Kbip"] := hk
  simp only [List.mem_cons, List.not_mem_nil, or_false] at this
  rcases this with rfl | rfl | rfl <;> rfl

end TEflow.BandCfg
