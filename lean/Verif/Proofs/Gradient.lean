import Verif.Proofs.Parse
import Verif.Spec.Gradient
/-!
# Lemmas about the parts of gradients
-/
namespace Flair.Proofs.Gradient
open Flair.Calc Flair.Values Flair.Shorthand Flair.Longhand Flair.Gradient Flair.Spec Flair.Proofs.Parse

variable {α K T H : Type} {color : Tok → Option K}

theorem ident_ok_iff {s : String} {u : Unit} {ts rest : List Tok} : identIs s ts = .ok (u, rest) ↔ ts = .ident s :: rest := by
  unfold identIs
  rw [one_tok1]
  constructor
  · rintro ⟨t, rfl, h⟩
    cases t <;> simp_all [identTok]
  · rintro rfl; exact ⟨_, rfl, by simp [identTok]⟩

theorem ident_ok (s : String) (rest : List Tok) : identIs s (.ident s :: rest) = .ok ((), rest) := ident_ok_iff.2 rfl

theorem word_iff {f : String → Option α} {ts rest : List Tok} {a : α} :
    tok1 (wordTok f) ts = .ok (a, rest) ↔ ∃ w, ts = .ident w :: rest ∧ f w = some a := by
  rw [one_tok1]
  constructor
  · rintro ⟨t, rfl, h⟩
    cases t with
    | ident w => exact ⟨w, rfl, h⟩
    | _ => simp [wordTok] at h
  · rintro ⟨w, rfl, h⟩; exact ⟨_, rfl, h⟩

theorem word_ok {f : String → Option α} {w : String} {a : α} (h : f w = some a) (rest : List Tok) :
    tok1 (wordTok f) (.ident w :: rest) = .ok (a, rest) := word_iff.2 ⟨w, rfl, h⟩

theorem word_err {f : String → Option α} {w : String} (h : f w = none) (rest : List Tok) :
    tok1 (wordTok f) (.ident w :: rest) = .err := tok1_none (by simpa [wordTok] using h) _

theorem length_word {w : String} (h : w ≠ "auto") (ts : List Tok) : calcVal (.ident w :: ts) = .err := by
  unfold calcVal; rw [calcP_plain _ _ (by simp [Plain1]) (by intros; rfl)]
  have : valTok (.ident w) = none := by simp [valTok, h]
  rw [this]

theorem angle_word {w : String} (h : w ≠ "none") (ts : List Tok) : calcAngle (.ident w :: ts) = .err := by
  unfold calcAngle; rw [calcP_plain _ _ (by simp [Plain1]) (by intros; rfl)]
  have : angleTok (.ident w) = none := by simp [angleTok, h]
  rw [this]

theorem angle_comma (ts : List Tok) : calcAngle (.comma :: ts) = .err := by
  unfold calcAngle; rw [calcP_plain _ _ (by simp [Plain1]) (by intros; rfl)]; rfl

/-- What may come after a part of a gradient. -/
def Follow (color : Tok → Option K) (ws : List String) (rest : List Tok) : Prop :=
  ∀ t ∈ rest.head?, t = .comma ∨ (∃ w ∈ ws, t = .ident w) ∨ ∃ k, color t = some k

theorem follow_nil (ws : List String) : Follow color ws [] := by intro t ht; cases ht
theorem follow_comma (ws : List String) (ts : List Tok) : Follow color ws (.comma :: ts) := by
  intro t ht; cases ht; exact .inl rfl
theorem follow_mono {ws ws' : List String} {rest : List Tok} (h : Follow color ws rest) (hs : ∀ w ∈ ws, w ∈ ws') :
    Follow color ws' rest := fun t ht => (h t ht).imp id (Or.imp (fun ⟨w, hw, e⟩ => ⟨w, hs w hw, e⟩) id)
theorem follow_word {ws : List String} {w : String} (h : w ∈ ws) (ts : List Tok) : Follow color ws (.ident w :: ts) := by
  intro t ht; cases ht; exact .inr (.inl ⟨w, h, rfl⟩)

theorem length_follow (hc : GradientColors color) {ws : List String} {rest : List Tok} (hf : Follow color ws rest)
    (hw : "auto" ∉ ws) : calcVal rest = .err := by
  cases rest with
  | nil => rfl
  | cons t ts =>
    rcases hf t rfl with rfl | ⟨w, hm, rfl⟩ | ⟨k, hk⟩
    · exact length_comma _
    · exact length_word (by rintro rfl; exact hw hm) _
    · exact calcP_head_err (hc.length t k hk) _

theorem angle_follow (hc : GradientColors color) {ws : List String} {rest : List Tok} (hf : Follow color ws rest)
    (hw : "none" ∉ ws) : calcAngle rest = .err := by
  cases rest with
  | nil => rfl
  | cons t ts =>
    rcases hf t rfl with rfl | ⟨w, hm, rfl⟩ | ⟨k, hk⟩
    · exact angle_comma _
    · exact angle_word (by rintro rfl; exact hw hm) _
    · exact calcP_head_err (hc.angle t k hk) _

theorem word_follow (hc : GradientColors color) {ws : List String} {rest : List Tok} (hf : Follow color ws rest)
    {f : String → Option α} (hw : ∀ w ∈ ws, f w = none) (hg : ∀ w a, f w = some a → w ∈ gradientWords) :
    tok1 (wordTok f) rest = .err := by
  cases rest with
  | nil => rfl
  | cons t ts =>
    rcases hf t rfl with rfl | ⟨w, hm, rfl⟩ | ⟨k, hk⟩
    · rfl
    · exact word_err (hw w hm) _
    · cases t with
      | ident w =>
        cases hfw : f w with
        | none => exact word_err hfw _
        | some a => rw [hc.words w (hg w a hfw)] at hk; cases hk
      | _ => rfl

theorem ident_follow (hc : GradientColors color) {ws : List String} {rest : List Tok} (hf : Follow color ws rest)
    {s : String} (hw : s ∉ ws) (hg : s ∈ gradientWords) : identIs s rest = .err := by
  cases rest with
  | nil => rfl
  | cons t ts =>
    have key : t ≠ .ident s := by
      rintro rfl
      rcases hf _ rfl with h | ⟨w, hm, h⟩ | ⟨k, hk⟩
      · cases h
      · cases h; exact hw hm
      · rw [hc.words s hg] at hk; cases hk
    refine tok1_none ?_ _
    cases t <;> simp_all [identTok]

theorem lookup_words {l : List (String × α)} {w : String} {a : α} (h : l.lookup w = some a) : (w, a) ∈ l := by
  induction l with
  | nil => cases h
  | cons p l ih =>
    obtain ⟨v, b⟩ := p
    rw [List.lookup_cons] at h
    split at h
    · rename_i e; cases h; cases (beq_iff_eq.1 e); exact List.mem_cons_self
    · exact List.mem_cons_of_mem _ (ih h)

/-! ## Directions -/

theorem sideWord_iff {s : String} {q : ℚ} : sideWord s = some q ↔ SideIs s q := by
  constructor
  · intro h
    have := lookup_words h
    simp only [List.mem_cons, Prod.mk.injEq, List.not_mem_nil, or_false] at this
    rcases this with ⟨rfl, rfl⟩ | ⟨rfl, rfl⟩ | ⟨rfl, rfl⟩ | ⟨rfl, rfl⟩ <;> constructor
  · intro h; cases h <;> rfl

theorem side_words {w : String} {q : ℚ} (h : sideWord w = some q) : w ∈ gradientWords := by
  cases sideWord_iff.1 h <;> decide

theorem corner_iff {s t : String} {d : Dir} : CornerDir s t d ↔ ∃ a b, SideIs s a ∧ SideIs t b ∧ d = middle a b := by
  constructor
  · intro h
    cases h with
    | same h => exact ⟨_, _, h, h, by simp [middle]⟩
    | _ => exact ⟨_, _, by constructor, by constructor, by norm_num [middle]⟩
  · rintro ⟨a, b, ha, hb, rfl⟩
    cases ha <;> cases hb <;> norm_num [middle] <;> (try simp only [← neg_div]) <;> constructor <;> constructor

theorem angleP_ok {ts rest : List Tok} {o : Option Dir} (h : angleP ts = .ok (o, rest)) :
    ∃ us, ts = us ++ rest ∧ DirForm us o := by
  simp only [angleP, bind_ok_iff, tryP_ok_iff] at h
  obtain ⟨o', ts', h | h, hf⟩ := h
  · obtain ⟨a, rfl, h⟩ := h
    obtain ⟨t, rfl, ht⟩ := (one_angle _ _ _).1 h
    cases hf
    exact ⟨[t], rfl, .angle ht⟩
  · obtain ⟨rfl, rfl, _⟩ := h
    simp only [bind_ok_iff, tryP_ok_iff] at hf
    obtain ⟨o', ts', h | h, hf⟩ := hf
    · obtain ⟨a, rfl, h⟩ := h
      obtain rfl := ident_ok_iff.1 h
      simp only [bind_ok_iff, tryP_ok_iff, word_iff, sideWord_iff] at hf
      obtain ⟨a, ts'', ⟨w, rfl, ha⟩, o', ts3, h | h, hf⟩ := hf
      · obtain ⟨b, rfl, w', rfl, hb⟩ := h
        cases hf
        exact ⟨[_, _, _], rfl, .corner (corner_iff.2 ⟨_, _, ha, hb, rfl⟩)⟩
      · obtain ⟨rfl, rfl, _⟩ := h
        cases hf
        exact ⟨[_, _], rfl, .side ha⟩
    · obtain ⟨rfl, rfl, _⟩ := h
      cases hf
      exact ⟨[], rfl, .absent⟩

theorem angleP_of (hc : GradientColors color) {us rest : List Tok} {o : Option Dir} (h : DirForm us o)
    (hf : Follow color ["in"] rest) : angleP (us ++ rest) = .ok (o, rest) := by
  cases h with
  | absent =>
    simp [angleP, bind_run, tryP_err (angle_follow hc hf (by decide)), tryP_err (ident_follow hc hf (s := "to") (by decide) (by decide)), pure_run]
  | angle ha =>
    simp [angleP, bind_run, tryP_ok ((one_angle _ _ rest).2 ⟨_, rfl, ha⟩), pure_run]
  | side hs =>
    simp [angleP, bind_run, tryP_err (angle_word (w := "to") (by decide) _), tryP_ok (ident_ok _ _), word_ok (sideWord_iff.2 hs),
      tryP_err (word_follow hc hf (f := sideWord) (by decide) (fun w a h => side_words h)), pure_run]
  | corner hs =>
    obtain ⟨a, b, ha, hb, rfl⟩ := corner_iff.1 hs
    simp [angleP, bind_run, tryP_err (angle_word (w := "to") (by decide) _), tryP_ok (ident_ok _ _), word_ok (sideWord_iff.2 ha),
      tryP_ok (word_ok (sideWord_iff.2 hb) _), pure_run]

/-! ## Color spaces -/

theorem hueP_ok {ts rest : List Tok} {b : Bool} (h : hueP ts = .ok (b, rest)) :
    (ts = rest ∧ b = false) ∨ (ts = .ident "longer" :: .ident "hue" :: rest ∧ b = true) ∨
      (ts = .ident "shorter" :: .ident "hue" :: rest ∧ b = false) := by
  simp only [hueP, bind_ok_iff, tryP_ok_iff] at h
  obtain ⟨o, ts', ⟨_, rfl, h⟩ | ⟨rfl, rfl, _⟩, hf⟩ := h
  · obtain rfl := ident_ok_iff.1 h
    simp only [bind_ok_iff, ident_ok_iff, pure_ok_iff] at hf
    obtain ⟨_, _, rfl, rfl, rfl⟩ := hf
    exact .inr (.inl ⟨rfl, rfl⟩)
  · simp only [bind_ok_iff, tryP_ok_iff] at hf
    obtain ⟨o, ts', ⟨_, rfl, h⟩ | ⟨rfl, rfl, _⟩, hf⟩ := hf
    · obtain rfl := ident_ok_iff.1 h
      simp only [bind_ok_iff, ident_ok_iff, pure_ok_iff] at hf
      obtain ⟨_, _, rfl, rfl, rfl⟩ := hf
      exact .inr (.inr ⟨rfl, rfl⟩)
    · cases hf
      exact .inl ⟨rfl, rfl⟩

theorem hueP_follow (hc : GradientColors color) {rest : List Tok} (hf : Follow color [] rest) : hueP rest = .ok (false, rest) := by
  simp [hueP, bind_run, tryP_err (ident_follow hc hf (s := "longer") (by decide) (by decide)),
    tryP_err (ident_follow hc hf (s := "shorter") (by decide) (by decide)), pure_run]

theorem hueP_longer (rest : List Tok) : hueP (.ident "longer" :: .ident "hue" :: rest) = .ok (true, rest) := rfl
theorem hueP_shorter (rest : List Tok) : hueP (.ident "shorter" :: .ident "hue" :: rest) = .ok (false, rest) := rfl

theorem spaceP_ok {ts rest : List Tok} {o : Option Space} (h : spaceP ts = .ok (o, rest)) :
    ∃ us, ts = us ++ rest ∧ SpaceForm us o := by
  simp only [spaceP, bind_ok_iff, tryP_ok_iff] at h
  obtain ⟨o', ts', ⟨_, rfl, h⟩ | ⟨rfl, rfl, _⟩, hf⟩ := h
  · obtain rfl := ident_ok_iff.1 h
    simp only [bind_ok_iff, word_iff] at hf
    obtain ⟨s, ts'', ⟨w, rfl, hw⟩, hf⟩ := hf
    have := lookup_words hw
    simp only [List.mem_cons, Prod.mk.injEq, List.not_mem_nil, or_false] at this
    rcases this with ⟨rfl, rfl⟩ | ⟨rfl, rfl⟩ | ⟨rfl, rfl⟩ | ⟨rfl, rfl⟩ | ⟨rfl, rfl⟩ | ⟨rfl, rfl⟩
    all_goals
      first
      | (cases hf; exact ⟨[_, _], rfl, by constructor⟩)
      | (simp only [bind_ok_iff, pure_ok_iff] at hf
         obtain ⟨b, ts3, hb, rfl, rfl⟩ := hf
         rcases hueP_ok hb with ⟨rfl, rfl⟩ | ⟨rfl, rfl⟩ | ⟨rfl, rfl⟩
         · exact ⟨[_, _], rfl, by constructor⟩
         · exact ⟨[_, _, _, _], rfl, by constructor⟩
         · exact ⟨[_, _, _, _], rfl, by constructor⟩)
  · cases hf
    exact ⟨[], rfl, .absent⟩

theorem spaceP_of (hc : GradientColors color) {us rest : List Tok} {o : Option Space} (h : SpaceForm us o)
    (hf : Follow color [] rest) : spaceP (us ++ rest) = .ok (o, rest) := by
  cases h with
  | absent => simp [spaceP, bind_run, tryP_err (ident_follow hc hf (s := "in") (by decide) (by decide)), pure_run]
  | oklab => rfl
  | srgb => rfl
  | linearRgb => rfl
  | _ =>
    simp [spaceP, bind_run, tryP_ok (ident_ok _ _), word_ok (f := spaceWord) (w := "oklch") rfl, word_ok (f := spaceWord) (w := "hsl") rfl,
      word_ok (f := spaceWord) (w := "hsv") rfl, hueP_follow hc hf, hueP_longer, hueP_shorter, pure_run]

theorem space_follow {us rest : List Tok} {o : Option Space} (h : SpaceForm us o) (hf : Follow color [] rest) :
    Follow color ["in"] (us ++ rest) := by
  cases h with
  | absent => exact follow_mono hf (by simp)
  | _ => exact follow_word (by simp) _

/-! ## Shapes -/

theorem roundP_ok {ts rest : List Tok} {s : Shape} (h : roundP ts = .ok (s, rest)) : ∃ us, ts = us ++ rest ∧ SizeForm us s := by
  simp only [roundP, bind_ok_iff, tryP_ok_iff, one_length _ _ _] at h
  obtain ⟨x, ts', ⟨a, rfl, ha⟩, o, ts'', ⟨y, rfl, b, rfl, hb⟩ | ⟨rfl, rfl, _⟩, hf⟩ := h
  · cases hf; exact ⟨[a, b], rfl, .ellipse ha hb⟩
  · cases hf; exact ⟨[a], rfl, .circle ha⟩

theorem shapeWord_form {w : String} {s : Shape} (h : shapeWord w = some s) : SizeForm [.ident w] s ∧ w ∈ gradientWords := by
  have := lookup_words h
  simp only [List.mem_cons, Prod.mk.injEq, List.not_mem_nil, or_false] at this
  rcases this with ⟨rfl, rfl⟩ | ⟨rfl, rfl⟩ | ⟨rfl, rfl⟩ | ⟨rfl, rfl⟩ <;> exact ⟨by constructor, by decide⟩

theorem roundWord_iff {w : String} {u : Unit} : roundWord w = some u ↔ w ∈ ["circle", "ellipse"] := by
  simp only [roundWord]
  split
  · simp_all
  · split <;> simp_all

theorem shapeP_ok {ts rest : List Tok} {o : Option Shape} (h : shapeP ts = .ok (o, rest)) :
    ∃ us, ts = us ++ rest ∧ ShapeForm us o := by
  simp only [shapeP, bind_ok_iff, tryP_ok_iff, word_iff] at h
  obtain ⟨o', ts', ⟨_, rfl, w, rfl, hw⟩ | ⟨rfl, rfl, _⟩, hf⟩ := h
  · have hw := roundWord_iff.1 hw
    simp only [bind_ok_iff, tryP_ok_iff] at hf
    obtain ⟨o', ts'', ⟨s, rfl, hs⟩ | ⟨rfl, rfl, _⟩, hf⟩ := hf
    · obtain ⟨us, rfl, hu⟩ := roundP_ok hs
      cases hf
      exact ⟨.ident w :: us, rfl, .word hw hu⟩
    · simp only [bind_ok_iff, word_iff, pure_ok_iff] at hf
      obtain ⟨s, _, ⟨w', rfl, hs⟩, rfl, rfl⟩ := hf
      exact ⟨[_, _], rfl, .word hw (shapeWord_form hs).1⟩
  · simp only [bind_ok_iff, tryP_ok_iff] at hf
    obtain ⟨o', ts'', ⟨s, rfl, hs⟩ | ⟨rfl, rfl, _⟩, hf⟩ := hf
    · obtain ⟨us, rfl, hu⟩ := roundP_ok hs
      cases hf
      exact ⟨us, rfl, .size hu⟩
    · simp only [tryP_ok_iff, word_iff] at hf
      rcases hf with ⟨s, rfl, w, rfl, hs⟩ | ⟨rfl, rfl, _⟩
      · exact ⟨[_], rfl, .size (shapeWord_form hs).1⟩
      · exact ⟨[], rfl, .absent⟩

theorem size_cases {us : List Tok} {s : Shape} (h : SizeForm us s) :
    (∃ a x, us = [a] ∧ s = .circle x ∧ IsLengthTok a x) ∨
    (∃ a b x y, us = [a, b] ∧ s = .ellipse x y ∧ IsLengthTok a x ∧ IsLengthTok b y) ∨
    (∃ w, us = [.ident w] ∧ shapeWord w = some s ∧ w ≠ "auto" ∧ roundWord w = none) := by
  cases h with
  | circle ha => exact .inl ⟨_, _, rfl, rfl, ha⟩
  | ellipse ha hb => exact .inr (.inl ⟨_, _, _, _, rfl, rfl, ha, hb⟩)
  | _ => exact .inr (.inr ⟨_, rfl, rfl, by decide, by decide⟩)

theorem roundP_of (hc : GradientColors color) {rest : List Tok} (hf : Follow color ["at", "in"] rest) {a : Tok} {x : Val}
    (ha : IsLengthTok a x) : roundP (a :: rest) = .ok (.circle x, rest) := by
  simp [roundP, bind_run, (one_length _ _ rest).2 ⟨_, rfl, ha⟩, tryP_err (length_follow hc hf (by decide)), pure_run]

theorem roundP_of2 {rest : List Tok} {a b : Tok} {x y : Val}
    (ha : IsLengthTok a x) (hb : IsLengthTok b y) : roundP (a :: b :: rest) = .ok (.ellipse x y, rest) := by
  simp [roundP, bind_run, (one_length _ _ (b :: rest)).2 ⟨_, rfl, ha⟩, tryP_ok ((one_length _ _ rest).2 ⟨_, rfl, hb⟩), pure_run]

theorem round_word_err {w : String} (h : w ≠ "auto") (rest : List Tok) : roundP (.ident w :: rest) = .err := by
  simp [roundP, bind_run, length_word h]

theorem round_length_err {a : Tok} {x : Val} (ha : IsLengthTok a x) (rest : List Tok) : tok1 (wordTok roundWord) (a :: rest) = .err := by
  refine tok1_none ?_ _
  cases a with
  | ident s =>
    obtain ⟨rfl, _⟩ := length_ident ha
    rfl
  | _ => rfl

theorem shapeP_of (hc : GradientColors color) {us rest : List Tok} {o : Option Shape} (h : ShapeForm us o)
    (hf : Follow color ["at", "in"] rest) : shapeP (us ++ rest) = .ok (o, rest) := by
  cases h with
  | absent =>
    have h1 : tok1 (wordTok roundWord) rest = .err :=
      word_follow hc hf (by decide) fun w a h => by
        have := roundWord_iff.1 h
        simp only [List.mem_cons, List.not_mem_nil, or_false] at this
        rcases this with rfl | rfl <;> decide
    have h2 : tok1 (wordTok shapeWord) rest = .err := word_follow hc hf (by decide) fun w a h => (shapeWord_form h).2
    have h3 : roundP rest = .err := by simp [roundP, bind_run, length_follow hc hf (by decide)]
    simp [shapeP, bind_run, tryP_err h1, tryP_err h2, tryP_err h3]
  | size h =>
    rcases size_cases h with ⟨a, x, rfl, rfl, ha⟩ | ⟨a, b, x, y, rfl, rfl, ha, hb⟩ | ⟨w, rfl, hw, hn, hr⟩
    · simp [shapeP, bind_run, tryP_err (round_length_err ha _), tryP_ok (roundP_of hc hf ha), pure_run]
    · simp [shapeP, bind_run, tryP_err (round_length_err ha _), tryP_ok (roundP_of2 ha hb), pure_run]
    · simp [shapeP, bind_run, tryP_err (word_err hr _), tryP_err (round_word_err hn _), tryP_ok (word_ok hw _)]
  | word hm h =>
    have hm := (roundWord_iff (u := ())).2 hm
    rcases size_cases h with ⟨a, x, rfl, rfl, ha⟩ | ⟨a, b, x, y, rfl, rfl, ha, hb⟩ | ⟨w, rfl, hw, hn, hr⟩
    · simp [shapeP, bind_run, tryP_ok (word_ok hm _), tryP_ok (roundP_of hc hf ha), pure_run]
    · simp [shapeP, bind_run, tryP_ok (word_ok hm _), tryP_ok (roundP_of2 ha hb), pure_run]
    · simp [shapeP, bind_run, tryP_ok (word_ok hm _), tryP_err (round_word_err hn _), word_ok hw _, pure_run]

/-! ## Positions -/

theorem across_iff {ts rest : List Tok} {p : Position} :
    valOrWord (fun v => { left with x := v }) acrossWord ts = .ok (p, rest) ↔
      ∃ t ax x, ts = t :: rest ∧ AcrossIs t ax x ∧ p = ⟨ax, 0, x, .len .px 0⟩ := by
  simp only [valOrWord, bind_ok_iff, tryP_ok_iff, one_length _ _ _]
  constructor
  · rintro ⟨o, ts', ⟨v, rfl, t, rfl, ht⟩ | ⟨rfl, rfl, _⟩, hf⟩
    · cases hf
      exact ⟨t, _, _, rfl, .length ht, rfl⟩
    · obtain ⟨w, rfl, hw⟩ := word_iff.1 hf
      have := lookup_words hw
      simp only [List.mem_cons, Prod.mk.injEq, List.not_mem_nil, or_false] at this
      rcases this with ⟨rfl, rfl⟩ | ⟨rfl, rfl⟩ | ⟨rfl, rfl⟩
      · exact ⟨_, _, _, rfl, .left, rfl⟩
      · exact ⟨_, _, _, rfl, .center, rfl⟩
      · exact ⟨_, _, _, rfl, .right, rfl⟩
  · rintro ⟨t, ax, x, rfl, h, rfl⟩
    cases h with
    | length h => exact ⟨some x, rest, .inl ⟨_, rfl, t, rfl, h⟩, rfl⟩
    | _ => exact ⟨none, _, .inr ⟨rfl, rfl, length_word (by decide) _⟩, rfl⟩

theorem along_iff {ts rest : List Tok} {p : Position} :
    valOrWord (fun v => { top with y := v }) alongWord ts = .ok (p, rest) ↔
      ∃ t ay y, ts = t :: rest ∧ AlongIs t ay y ∧ p = ⟨0, ay, .len .px 0, y⟩ := by
  simp only [valOrWord, bind_ok_iff, tryP_ok_iff, one_length _ _ _]
  constructor
  · rintro ⟨o, ts', ⟨v, rfl, t, rfl, ht⟩ | ⟨rfl, rfl, _⟩, hf⟩
    · cases hf
      exact ⟨t, _, _, rfl, .length ht, rfl⟩
    · obtain ⟨w, rfl, hw⟩ := word_iff.1 hf
      have := lookup_words hw
      simp only [List.mem_cons, Prod.mk.injEq, List.not_mem_nil, or_false] at this
      rcases this with ⟨rfl, rfl⟩ | ⟨rfl, rfl⟩ | ⟨rfl, rfl⟩
      · exact ⟨_, _, _, rfl, .top, rfl⟩
      · exact ⟨_, _, _, rfl, .center, rfl⟩
      · exact ⟨_, _, _, rfl, .bottom, rfl⟩
  · rintro ⟨t, ay, y, rfl, h, rfl⟩
    cases h with
    | length h => exact ⟨some y, rest, .inl ⟨_, rfl, t, rfl, h⟩, rfl⟩
    | _ => exact ⟨none, _, .inr ⟨rfl, rfl, length_word (by decide) _⟩, rfl⟩

theorem position2_iff {ts rest : List Tok} {p : Position} : position2 ts = .ok (p, rest) ↔
    ∃ s t ax ay x y, ts = s :: t :: rest ∧ AcrossIs s ax x ∧ AlongIs t ay y ∧ p = ⟨ax, ay, x, y⟩ := by
  simp only [position2, bind_ok_iff, pure_ok_iff]
  constructor
  · rintro ⟨_, _, ha, _, _, hb, rfl, rfl⟩
    obtain ⟨s, ax, x, rfl, hs, rfl⟩ := across_iff.1 ha
    obtain ⟨t, ay, y, rfl, ht, rfl⟩ := along_iff.1 hb
    exact ⟨s, t, ax, ay, x, y, rfl, hs, ht, rfl⟩
  · rintro ⟨s, t, ax, ay, x, y, rfl, hs, ht, rfl⟩
    exact ⟨_, _, across_iff.2 ⟨s, ax, x, rfl, hs, rfl⟩, _, _, along_iff.2 ⟨t, ay, y, rfl, ht, rfl⟩, rfl, rfl⟩

theorem leftRight_iff {w : String} {a : Int} : leftRight w = some a ↔ EdgeX w a := by
  constructor
  · intro h
    have := lookup_words h
    simp only [List.mem_cons, Prod.mk.injEq, List.not_mem_nil, or_false] at this
    rcases this with ⟨rfl, rfl⟩ | ⟨rfl, rfl⟩ <;> constructor
  · intro h; cases h <;> rfl

theorem topBottom_iff {w : String} {a : Int} : topBottom w = some a ↔ EdgeY w a := by
  constructor
  · intro h
    have := lookup_words h
    simp only [List.mem_cons, Prod.mk.injEq, List.not_mem_nil, or_false] at this
    rcases this with ⟨rfl, rfl⟩ | ⟨rfl, rfl⟩ <;> constructor
  · intro h; cases h <;> rfl

theorem position3_iff {ts rest : List Tok} {p : Position} : position3 ts = .ok (p, rest) ↔
    ∃ v a w b ax x ay y, ts = .ident v :: a :: .ident w :: b :: rest ∧ EdgeX v ax ∧ IsLengthTok a x ∧ EdgeY w ay ∧
      IsLengthTok b y ∧ p = ⟨ax, ay, x, y⟩ := by
  simp only [position3, bind_ok_iff, word_iff, one_length _ _ _, pure_ok_iff, leftRight_iff, topBottom_iff]
  constructor
  · rintro ⟨ax, _, ⟨v, rfl, hv⟩, x, _, ⟨a, rfl, ha⟩, ay, _, ⟨w, rfl, hw⟩, y, _, ⟨b, rfl, hb⟩, rfl, rfl⟩
    exact ⟨v, a, w, b, ax, x, ay, y, rfl, hv, ha, hw, hb, rfl⟩
  · rintro ⟨v, a, w, b, ax, x, ay, y, rfl, hv, ha, hw, hb, rfl⟩
    exact ⟨ax, _, ⟨v, rfl, hv⟩, x, _, ⟨a, rfl, ha⟩, ay, _, ⟨w, rfl, hw⟩, y, _, ⟨b, rfl, hb⟩, rfl, rfl⟩

theorem position1_ok {ts rest : List Tok} {p : Position} (h : position1 ts = .ok (p, rest)) :
    (∃ t ax x, ts = t :: rest ∧ AcrossIs t ax x ∧ p = ⟨ax, 0, x, .len .px 0⟩) ∨
      ∃ w ay, ts = .ident w :: rest ∧ EdgeY w ay ∧ p = ⟨0, ay, .len .px 0, .len .px 0⟩ := by
  simp only [position1, valOrWord, bind_ok_iff, tryP_ok_iff, one_length _ _ _] at h
  obtain ⟨o, ts', ⟨v, rfl, t, rfl, ht⟩ | ⟨rfl, rfl, _⟩, hf⟩ := h
  · cases hf
    exact .inl ⟨t, _, _, rfl, .length ht, rfl⟩
  · obtain ⟨w, rfl, hw⟩ := word_iff.1 hf
    have := lookup_words hw
    simp only [List.mem_cons, Prod.mk.injEq, List.not_mem_nil, or_false] at this
    rcases this with ⟨rfl, rfl⟩ | ⟨rfl, rfl⟩ | ⟨rfl, rfl⟩ | ⟨rfl, rfl⟩ | ⟨rfl, rfl⟩
    · exact .inl ⟨_, _, _, rfl, .left, rfl⟩
    · exact .inl ⟨_, _, _, rfl, .center, rfl⟩
    · exact .inl ⟨_, _, _, rfl, .right, rfl⟩
    · exact .inr ⟨_, _, rfl, .top, rfl⟩
    · exact .inr ⟨_, _, rfl, .bottom, rfl⟩

theorem position1_across {t : Tok} {ax : Int} {x : Val} (h : AcrossIs t ax x) (rest : List Tok) :
    position1 (t :: rest) = .ok (⟨ax, 0, x, .len .px 0⟩, rest) := by
  simp only [position1, valOrWord, bind_ok_iff, tryP_ok_iff, one_length _ _ _]
  cases h with
  | length h => exact ⟨some x, rest, .inl ⟨_, rfl, t, rfl, h⟩, rfl⟩
  | _ => exact ⟨none, _, .inr ⟨rfl, rfl, length_word (by decide) _⟩, rfl⟩

theorem position1_vertical {w : String} {ay : Int} (h : EdgeY w ay) (rest : List Tok) :
    position1 (.ident w :: rest) = .ok (⟨0, ay, .len .px 0, .len .px 0⟩, rest) := by
  simp only [position1, valOrWord, bind_ok_iff, tryP_ok_iff, one_length _ _ _]
  cases h with
  | _ => exact ⟨none, _, .inr ⟨rfl, rfl, length_word (by decide) _⟩, rfl⟩

theorem positionP_ok {ts rest : List Tok} {o : Option Position} (h : positionP ts = .ok (o, rest)) :
    ∃ us, ts = us ++ rest ∧ PositionForm us o := by
  simp only [positionP, bind_ok_iff, tryP_ok_iff] at h
  obtain ⟨o', ts', ⟨_, rfl, h⟩ | ⟨rfl, rfl, _⟩, hf⟩ := h
  · obtain rfl := ident_ok_iff.1 h
    simp only [bind_ok_iff, tryP_ok_iff] at hf
    obtain ⟨o', ts'', ⟨p, rfl, h⟩ | ⟨rfl, rfl, _⟩, hf⟩ := hf
    · obtain ⟨v, a, w, b, ax, x, ay, y, rfl, hv, ha, hw, hb, rfl⟩ := position3_iff.1 h
      cases hf
      exact ⟨[_, _, _, _, _], rfl, .four hv ha hw hb⟩
    · simp only [bind_ok_iff, tryP_ok_iff] at hf
      obtain ⟨o', ts'', ⟨p, rfl, h⟩ | ⟨rfl, rfl, _⟩, hf⟩ := hf
      · obtain ⟨s, t, ax, ay, x, y, rfl, hs, ht, rfl⟩ := position2_iff.1 h
        cases hf
        exact ⟨[_, _, _], rfl, .two hs ht⟩
      · simp only [bind_ok_iff, pure_ok_iff] at hf
        obtain ⟨p, _, hp, rfl, rfl⟩ := hf
        rcases position1_ok hp with ⟨t, ax, x, rfl, h, rfl⟩ | ⟨w, ay, rfl, h, rfl⟩
        · exact ⟨[_, _], rfl, .one h⟩
        · exact ⟨[_, _], rfl, .vertical h⟩
  · cases hf
    exact ⟨[], rfl, .absent⟩

theorem along_err (hc : GradientColors color) {rest : List Tok} (hf : Follow color ["in"] rest) :
    valOrWord (fun v => { top with y := v }) alongWord rest = .err := by
  have h2 : tok1 (wordTok alongWord) rest = .err := word_follow hc hf (by decide) fun w a h => by
    have := lookup_words h
    simp only [List.mem_cons, Prod.mk.injEq, List.not_mem_nil, or_false] at this
    rcases this with ⟨rfl, rfl⟩ | ⟨rfl, rfl⟩ | ⟨rfl, rfl⟩ <;> decide
  simp [valOrWord, bind_run, tryP_err (length_follow hc hf (by decide)), h2]

theorem edge_length {a : Tok} {x : Val} (ha : IsLengthTok a x) (rest : List Tok) : tok1 (wordTok leftRight) (a :: rest) = .err := by
  refine tok1_none ?_ _
  cases a with
  | ident s =>
    obtain ⟨rfl, _⟩ := length_ident ha
    rfl
  | _ => rfl

theorem position3_one (hc : GradientColors color) {rest : List Tok} (hf : Follow color ["in"] rest) {t : Tok} {ax : Int} {x : Val}
    (h : AcrossIs t ax x) : position3 (t :: rest) = .err := by
  cases h with
  | length h => simp [position3, bind_run, edge_length h]
  | left => simp [position3, bind_run, word_ok (f := leftRight) (w := "left") rfl, length_follow hc hf (by decide)]
  | center => simp [position3, bind_run, word_err (f := leftRight) (w := "center") rfl]
  | right => simp [position3, bind_run, word_ok (f := leftRight) (w := "right") rfl, length_follow hc hf (by decide)]

theorem position3_two (hc : GradientColors color) {rest : List Tok} (hf : Follow color ["in"] rest) {s t : Tok} {ax ay : Int} {x y : Val}
    (h : AcrossIs s ax x) (ht : AlongIs t ay y) : position3 (s :: t :: rest) = .err := by
  have key : (calcVal (t :: rest) = .ok (y, rest) ∧ IsLengthTok t y) ∨ calcVal (t :: rest) = .err := by
    cases ht with
    | length h => exact .inl ⟨(one_length _ _ _).2 ⟨_, rfl, h⟩, h⟩
    | _ => exact .inr (length_word (by decide) _)
  have h2 : tok1 (wordTok topBottom) rest = .err := word_follow hc hf (by decide) fun w a h => by
    cases topBottom_iff.1 h <;> decide
  have go : ∀ w, EdgeX w ax → position3 (.ident w :: t :: rest) = .err := by
    intro w hw
    rcases key with ⟨e, _⟩ | e <;> simp [position3, bind_run, word_ok (leftRight_iff.2 hw), e, h2]
  cases h with
  | length h => simp [position3, bind_run, edge_length h]
  | left => exact go _ .left
  | center => simp [position3, bind_run, word_err (f := leftRight) (w := "center") rfl]
  | right => exact go _ .right

theorem positionP_of (hc : GradientColors color) {us rest : List Tok} {o : Option Position} (h : PositionForm us o)
    (hf : Follow color ["in"] rest) : positionP (us ++ rest) = .ok (o, rest) := by
  cases h with
  | absent => simp [positionP, bind_run, tryP_err (ident_follow hc hf (s := "at") (by decide) (by decide)), pure_run]
  | @one t ax x h =>
    have h2 : position2 (t :: rest) = .err := by
      simp only [position2, bind_err_iff]
      exact .inr ⟨_, _, across_iff.2 ⟨t, ax, x, rfl, h, rfl⟩, .inl (along_err hc hf)⟩
    simp [positionP, bind_run, tryP_ok (ident_ok _ _), tryP_err (position3_one hc hf h), tryP_err h2, position1_across h, pure_run]
  | @vertical w ay h =>
    have h3 : position3 (.ident w :: rest) = .err := by cases h <;> rfl
    have h2 : position2 (.ident w :: rest) = .err := by
      have : valOrWord (fun v => { left with x := v }) acrossWord (.ident w :: rest) = .err := by
        cases h <;> simp [valOrWord, bind_run, tryP_err (length_word (w := "top") (by decide) _),
          tryP_err (length_word (w := "bottom") (by decide) _)] <;> rfl
      simp [position2, bind_run, this]
    simp [positionP, bind_run, tryP_ok (ident_ok _ _), tryP_err h3, tryP_err h2, position1_vertical h, pure_run]
  | @two s t ax ay x y hs ht =>
    simp [positionP, bind_run, tryP_ok (ident_ok _ _), tryP_err (position3_two hc hf hs ht),
      tryP_ok (position2_iff.2 ⟨s, t, ax, ay, x, y, rfl, hs, ht, rfl⟩), pure_run]
  | @four v w a b ax ay x y hv ha hw hb =>
    simp [positionP, bind_run, tryP_ok (ident_ok _ _),
      tryP_ok (position3_iff.2 ⟨v, a, w, b, ax, x, ay, y, rfl, hv, ha, hw, hb, rfl⟩), pure_run]

theorem position_follow {us rest : List Tok} {o : Option Position} (h : PositionForm us o) (hf : Follow color ["in"] rest) :
    Follow color ["at", "in"] (us ++ rest) := by
  cases h with
  | absent => exact follow_mono hf (by simp)
  | _ => exact follow_word (by simp) _

/-! ## The start of a conic gradient -/

theorem fromP_ok {ts rest : List Tok} {o : Option ℚ} (h : fromP ts = .ok (o, rest)) : ∃ us, ts = us ++ rest ∧ FromForm us o := by
  simp only [fromP, bind_ok_iff, tryP_ok_iff] at h
  obtain ⟨o', ts', ⟨_, rfl, h⟩ | ⟨rfl, rfl, _⟩, hf⟩ := h
  · obtain rfl := ident_ok_iff.1 h
    simp only [bind_ok_iff, one_angle _ _ _, pure_ok_iff] at hf
    obtain ⟨a, _, ⟨t, rfl, ht⟩, rfl, rfl⟩ := hf
    exact ⟨[_, _], rfl, .angle ht⟩
  · cases hf
    exact ⟨[], rfl, .absent⟩

theorem fromP_of (hc : GradientColors color) {us rest : List Tok} {o : Option ℚ} (h : FromForm us o)
    (hf : Follow color ["at", "in"] rest) : fromP (us ++ rest) = .ok (o, rest) := by
  cases h with
  | absent => simp [fromP, bind_run, tryP_err (ident_follow hc hf (s := "from") (by decide) (by decide)), pure_run]
  | angle h => simp [fromP, bind_run, tryP_ok (ident_ok _ _), (one_angle _ _ rest).2 ⟨_, rfl, h⟩, pure_run]

/-! ## First parameters -/

/-- What is used of the parser of a first parameter. -/
structure HeadSpec (color : Tok → Option K) (head : P (Option H)) (Form : List Tok → H → Prop) : Prop where
  present : ∀ ts rest h, head ts = .ok (some h, rest) → ∃ us, us ≠ [] ∧ ts = us ++ rest ∧ Form us h
  missing : ∀ ts rest, head ts = .ok (none, rest) → rest = ts
  of : ∀ us h rest, us ≠ [] → Form us h → head (us ++ .comma :: rest) = .ok (some h, .comma :: rest)
  absent : ∀ t k rest, color t = some k → head (t :: rest) = .ok (none, t :: rest)

theorem follow_color {ws : List String} {t : Tok} {k : K} (h : color t = some k) (rest : List Tok) : Follow color ws (t :: rest) := by
  intro t' ht; cases ht; exact .inr (.inr ⟨k, h⟩)

theorem dir_some {us : List Tok} {o : Option Dir} (h : DirForm us o) : o.isSome = true ↔ us ≠ [] := by cases h <;> simp
theorem space_some {us : List Tok} {o : Option Space} (h : SpaceForm us o) : o.isSome = true ↔ us ≠ [] := by cases h <;> simp
theorem shape_some {us : List Tok} {o : Option Shape} (h : ShapeForm us o) : o.isSome = true ↔ us ≠ [] := by
  cases h with
  | absent => simp
  | size h => cases h <;> simp
  | word _ h => simp
theorem position_some {us : List Tok} {o : Option Position} (h : PositionForm us o) : o.isSome = true ↔ us ≠ [] := by cases h <;> simp
theorem from_some {us : List Tok} {o : Option ℚ} (h : FromForm us o) : o.isSome = true ↔ us ≠ [] := by cases h <;> simp

theorem some_of_ite {c : Bool} {a b : H} (h : (if c = true then some a else none) = some b) : c = true ∧ a = b := by
  cases c <;> simp_all

theorem combined2_spec (hc : GradientColors color) : HeadSpec color (combined2 angleP spaceP) LinearHead where
  present ts rest h hh := by
    simp only [combined2, bind_ok_iff, pure_ok_iff] at hh
    obtain ⟨a, _, ha, s, _, hs, he, rfl⟩ := hh
    obtain ⟨us, rfl, hu⟩ := angleP_ok ha
    obtain ⟨vs, rfl, hv⟩ := spaceP_ok hs
    obtain ⟨hn, rfl⟩ := some_of_ite he
    refine ⟨us ++ vs, ?_, by simp, .mk hu hv⟩
    rw [Bool.or_eq_true, dir_some hu, space_some hv] at hn
    simp only [ne_eq, List.append_eq_nil_iff, not_and_or]
    exact hn
  missing ts rest hh := by
    simp only [combined2, bind_ok_iff, pure_ok_iff] at hh
    obtain ⟨a, _, ha, s, _, hs, he, rfl⟩ := hh
    obtain ⟨us, rfl, hu⟩ := angleP_ok ha
    obtain ⟨vs, rfl, hv⟩ := spaceP_ok hs
    have hn : ¬ (a.isSome || s.isSome) = true := by
      intro hn; rw [if_pos hn] at he; cases he
    rw [Bool.or_eq_true, dir_some hu, space_some hv] at hn
    push Not at hn
    simp [hn.1, hn.2]
  of us h rest hn hh := by
    cases hh with
    | @mk us vs a s hu hv =>
      have h1 := angleP_of hc hu (space_follow hv (follow_comma (color := color) [] rest))
      have h2 := spaceP_of hc hv (follow_comma (color := color) [] rest)
      have h3 : (a.isSome || s.isSome) = true := by
        rw [Bool.or_eq_true, dir_some hu, space_some hv]
        simp only [ne_eq, List.append_eq_nil_iff, not_and_or] at hn
        exact hn
      simp only [combined2, bind_run, List.append_assoc, h1, Res.bind, h2, pure_run, if_pos h3]
  absent t k rest hk := by
    have h1 := angleP_of hc .absent (follow_color (ws := ["in"]) hk rest)
    have h2 := spaceP_of hc .absent (follow_color (ws := []) hk rest)
    rw [List.nil_append] at h1 h2
    simp [combined2, bind_run, h1, h2, pure_run]

theorem combined3_spec {A : Type} (hc : GradientColors color) {p : P (Option A)} {Form : List Tok → Option A → Prop}
    (hok : ∀ ts rest o, p ts = .ok (o, rest) → ∃ us, ts = us ++ rest ∧ Form us o)
    (hof : ∀ us rest o, Form us o → Follow color ["at", "in"] rest → p (us ++ rest) = .ok (o, rest))
    (hsome : ∀ us o, Form us o → (o.isSome = true ↔ us ≠ [])) (habs : Form [] none) :
    HeadSpec color (combined3 p positionP spaceP)
      (fun us h => ∃ u v w, us = u ++ (v ++ w) ∧ Form u h.1 ∧ PositionForm v h.2.1 ∧ SpaceForm w h.2.2) where
  present ts rest h hh := by
    simp only [combined3, bind_ok_iff, pure_ok_iff] at hh
    obtain ⟨a, _, ha, b, _, hb, s, _, hs, he, rfl⟩ := hh
    obtain ⟨us, rfl, hu⟩ := hok _ _ _ ha
    obtain ⟨vs, rfl, hv⟩ := positionP_ok hb
    obtain ⟨ws, rfl, hw⟩ := spaceP_ok hs
    obtain ⟨hn, rfl⟩ := some_of_ite he
    refine ⟨us ++ (vs ++ ws), ?_, by simp, us, vs, ws, rfl, hu, hv, hw⟩
    rw [Bool.or_eq_true, Bool.or_eq_true, hsome _ _ hu, position_some hv, space_some hw] at hn
    simp only [ne_eq, List.append_eq_nil_iff, not_and_or]
    exact hn
  missing ts rest hh := by
    simp only [combined3, bind_ok_iff, pure_ok_iff] at hh
    obtain ⟨a, _, ha, b, _, hb, s, _, hs, he, rfl⟩ := hh
    obtain ⟨us, rfl, hu⟩ := hok _ _ _ ha
    obtain ⟨vs, rfl, hv⟩ := positionP_ok hb
    obtain ⟨ws, rfl, hw⟩ := spaceP_ok hs
    have hn : ¬ (a.isSome || (b.isSome || s.isSome)) = true := by
      intro hn; rw [if_pos hn] at he; cases he
    rw [Bool.or_eq_true, Bool.or_eq_true, hsome _ _ hu, position_some hv, space_some hw] at hn
    push Not at hn
    simp [hn.1, hn.2.1, hn.2.2]
  of us h rest hn hh := by
    obtain ⟨u, v, w, rfl, hu, hv, hw⟩ := hh
    obtain ⟨a, b, s⟩ := h
    have hf := follow_comma (color := color) [] rest
    have h1 := hof _ _ _ hu (position_follow hv (space_follow hw hf))
    have h2 := positionP_of hc hv (space_follow hw hf)
    have h3 := spaceP_of hc hw hf
    have h4 : (a.isSome || (b.isSome || s.isSome)) = true := by
      rw [Bool.or_eq_true, Bool.or_eq_true, hsome _ _ hu, position_some hv, space_some hw]
      simp only [ne_eq, List.append_eq_nil_iff, not_and_or] at hn
      exact hn
    simp only [combined3, bind_run, List.append_assoc, h1, Res.bind, h2, h3, pure_run, if_pos h4]
  absent t k rest hk := by
    have h1 := hof _ _ _ habs (follow_color (ws := ["at", "in"]) hk rest)
    have h2 := positionP_of hc .absent (follow_color (ws := ["in"]) hk rest)
    have h3 := spaceP_of hc .absent (follow_color (ws := []) hk rest)
    rw [List.nil_append] at h1 h2 h3
    simp [combined3, bind_run, h1, h2, h3, pure_run]

theorem radial_spec (hc : GradientColors color) : HeadSpec color (combined3 shapeP positionP spaceP) RadialHead := by
  have := combined3_spec hc (fun _ _ _ => shapeP_ok) (fun _ _ _ h hf => shapeP_of hc h hf) (fun _ _ h => shape_some h) .absent
  convert this using 3 with us h
  constructor
  · rintro ⟨h1, h2, h3⟩; exact ⟨_, _, _, rfl, h1, h2, h3⟩
  · rintro ⟨u, v, w, rfl, h1, h2, h3⟩; exact ⟨h1, h2, h3⟩

theorem conic_spec (hc : GradientColors color) : HeadSpec color (combined3 fromP positionP spaceP) ConicHead := by
  have := combined3_spec hc (fun _ _ _ => fromP_ok) (fun _ _ _ h hf => fromP_of hc h hf) (fun _ _ h => from_some h) .absent
  convert this using 3 with us h
  constructor
  · rintro ⟨h1, h2, h3⟩; exact ⟨_, _, _, rfl, h1, h2, h3⟩
  · rintro ⟨u, v, w, rfl, h1, h2, h3⟩; exact ⟨h1, h2, h3⟩

/-! ## Stops -/

/-- What is used of the parser of a position. -/
structure PointSpec (color : Tok → Option K) (point : P T) (Point : Tok → T → Prop) : Prop where
  one : OneTok point Point
  empty : point [] = .err
  comma : ∀ ts, point (.comma :: ts) = .err

theorem stopP_ok {point : P T} {Point : Tok → T → Prop} (hp : PointSpec color point Point) {auto : T} {ts rest : List Tok}
    {ss : List (Gradient.Stop K T)} (h : stopP color point auto ts = .ok (ss, rest)) :
    ∃ us k ps, ts = us ++ rest ∧ ItemIs color Point us (.color k ps) ∧ ss = stopsAt auto k ps := by
  simp only [stopP, bind_ok_iff, one_tok1 _ _ _ _, loop_iff (takes_one hp.one hp.empty), readsAll_one hp.one, pure_ok_iff] at h
  obtain ⟨k, _, ⟨t, rfl, hk⟩, ps, _, ⟨⟨us, rfl, hu⟩, _⟩, rfl, rfl⟩ := h
  exact ⟨t :: us, k, ps, rfl, .color hk hu, rfl⟩

/-- After an item: the end or a comma. -/
def After (rest : List Tok) : Prop := rest = [] ∨ ∃ ts, rest = .comma :: ts

theorem stopP_of {point : P T} {Point : Tok → T → Prop} (hp : PointSpec color point Point) {auto : T} {us rest : List Tok}
    {k : K} {ps : List T} (h : ItemIs color Point us (.color k ps)) (hr : After rest) :
    stopP color point auto (us ++ rest) = .ok (stopsAt auto k ps, rest) := by
  cases h with
  | color hk hu =>
    simp only [stopP, bind_ok_iff, one_tok1 _ _ _ _, loop_iff (takes_one hp.one hp.empty), readsAll_one hp.one, pure_ok_iff]
    refine ⟨k, _, ⟨_, rfl, hk⟩, ps, rest, ⟨⟨_, rfl, hu⟩, ?_⟩, rfl, rfl⟩
    rcases hr with rfl | ⟨ts, rfl⟩
    · exact hp.empty
    · exact hp.comma ts

theorem percent_iff {t : Tok} {h : ℚ} : percentTok t = some h ↔ ∃ q, t = .percentage q ∧ h = q / 100 := by
  cases t <;> simp [percentTok, eq_comm]

theorem color_percent (hc : GradientColors color) {t : Tok} {k : K} (h : color t = some k) : percentTok t = none := by
  cases t with
  | percentage q =>
    have := hc.length _ _ h
    unfold calcVal at this
    rw [calcP_plain _ _ (by simp [Plain1]) (by intros; rfl)] at this
    cases this
  | _ => rfl

/-- One more item. -/
def step (auto : T) (acc : List (Gradient.Stop K T)) : Item K T → List (Gradient.Stop K T)
  | .color k ps => acc ++ stopsAt auto k ps
  | .hint h => setHint h acc

/-- The item is a color, unless there are already stops. -/
def Starts (acc : List (Gradient.Stop K T)) (i : Item K T) : Prop := acc = [] → ∃ k ps, i = .color k ps

theorem stopPart_ok {point : P T} {Point : Tok → T → Prop} (hp : PointSpec color point Point) {auto : T} {ts rest : List Tok}
    {acc ss : List (Gradient.Stop K T)} (h : stopPart (stopP color point auto) acc ts = .ok (ss, rest)) :
    ∃ us i, ts = us ++ rest ∧ ItemIs color Point us i ∧ Starts acc i ∧ ss = step auto acc i := by
  unfold stopPart at h
  split at h
  · simp only [bind_ok_iff, pure_ok_iff] at h
    obtain ⟨ss', _, hs, rfl, rfl⟩ := h
    obtain ⟨us, k, ps, rfl, hi, rfl⟩ := stopP_ok hp hs
    exact ⟨us, _, rfl, hi, fun _ => ⟨_, _, rfl⟩, rfl⟩
  · rename_i hne
    simp only [bind_ok_iff, tryP_ok_iff] at h
    obtain ⟨o, ts', ⟨q, rfl, hq⟩ | ⟨rfl, rfl, _⟩, hf⟩ := h
    · obtain ⟨t, rfl, ht⟩ := (one_tok1 _ _ _ _).1 hq
      obtain ⟨q, rfl, rfl⟩ := percent_iff.1 ht
      cases hf
      exact ⟨[_], _, rfl, .hint q, fun e => by simp [e] at hne, rfl⟩
    · simp only [bind_ok_iff, pure_ok_iff] at hf
      obtain ⟨ss', _, hs, rfl, rfl⟩ := hf
      obtain ⟨us, k, ps, rfl, hi, rfl⟩ := stopP_ok hp hs
      exact ⟨us, _, rfl, hi, fun _ => ⟨_, _, rfl⟩, rfl⟩

theorem stopPart_of (hc : GradientColors color) {point : P T} {Point : Tok → T → Prop} (hp : PointSpec color point Point)
    {auto : T} {us rest : List Tok} {acc : List (Gradient.Stop K T)} {i : Item K T} (hi : ItemIs color Point us i)
    (hs : Starts acc i) (hr : After rest) : stopPart (stopP color point auto) acc (us ++ rest) = .ok (step auto acc i, rest) := by
  unfold stopPart
  split
  · rename_i he
    obtain ⟨k, ps, rfl⟩ := hs (List.isEmpty_iff.1 he)
    simp [bind_run, stopP_of hp hi hr, pure_run, step]
  · cases i with
    | color k ps =>
      have : tok1 percentTok (us ++ rest) = .err := by
        cases hi with
        | color hk _ => exact tok1_none (color_percent hc hk) _
      simp [bind_run, tryP_err this, stopP_of hp hi hr, pure_run, step]
    | hint h =>
      cases hi with
      | hint q =>
        have : tok1 percentTok (.percentage q :: rest) = .ok (q / 100, rest) := rfl
        simp [bind_run, tryP_ok this, pure_run, step]

/-- Items, each after a comma. -/
inductive Commas (Form : List Tok → α → Prop) : List Tok → List α → Prop
  | nil : Commas Form [] []
  | cons {us a vs as} : Form us a → Commas Form vs as → Commas Form (.comma :: (us ++ vs)) (a :: as)

theorem commas_after {Form : List Tok → α → Prop} {us : List Tok} {as : List α} (h : Commas Form us as) : After us := by
  cases h with
  | nil => exact .inl rfl
  | cons => exact .inr ⟨_, rfl⟩

theorem commaSep_commas {Form : List Tok → α → Prop} {us : List Tok} {a : α} {as : List α} :
    CommaSep Form us (a :: as) ↔ ∃ u v, us = u ++ v ∧ Form u a ∧ Commas Form v as := by
  induction as generalizing us a with
  | nil =>
    constructor
    · intro h
      cases h with
      | one h => exact ⟨us, [], by simp, h, .nil⟩
      | more _ h => cases h
    · rintro ⟨u, v, rfl, h, hv⟩
      cases hv
      rw [List.append_nil]
      exact .one h
  | cons b as ih =>
    constructor
    · intro h
      cases h with
      | @more u _ v _ h hs =>
        obtain ⟨u', v', rfl, h', hv'⟩ := ih.1 hs
        exact ⟨u, _, rfl, h, .cons h' hv'⟩
    · rintro ⟨u, v, rfl, h, hv⟩
      cases hv with
      | cons h' hv' => exact .more h (ih.2 ⟨_, _, rfl, h', hv'⟩)

theorem setHint_ne {h : ℚ} {ss : List (Gradient.Stop K T)} (hn : ss ≠ []) : setHint h ss ≠ [] := by
  match ss with
  | [] => exact absurd rfl hn
  | [s] => simp [setHint]
  | s :: t :: ss => simp [setHint]

theorem stopsAt_ne (auto : T) (k : K) (ps : List T) : stopsAt auto k ps ≠ [] := by
  unfold stopsAt
  cases ps <;> simp

theorem step_ne {auto : T} {acc : List (Gradient.Stop K T)} {i : Item K T} (h : Starts acc i) : step auto acc i ≠ [] := by
  cases i with
  | color k ps => simp [step, stopsAt_ne]
  | hint q =>
    refine setHint_ne ?_
    intro e
    obtain ⟨_, _, he⟩ := h e
    cases he

/-- The first of the items is a color, unless there are already stops. -/
def StartsAll (acc : List (Gradient.Stop K T)) (is : List (Item K T)) : Prop := ∀ i ∈ is.head?, Starts acc i

theorem startsAll_ne {acc : List (Gradient.Stop K T)} (h : acc ≠ []) (is : List (Item K T)) : StartsAll acc is :=
  fun _ _ e => absurd e h

theorem stopLoop_ok {point : P T} {Point : Tok → T → Prop} (hp : PointSpec color point Point) {auto : T} {n : Nat}
    {ts : List Tok} {acc ss : List (Gradient.Stop K T)} (hn : ts.length ≤ n)
    (h : stopLoop (stopP color point auto) n acc ts = .ok (ss, [])) :
    ∃ is, Commas (ItemIs color Point) ts is ∧ StartsAll acc is ∧ ss = is.foldl (step auto) acc := by
  induction n generalizing ts acc with
  | zero =>
    cases List.eq_nil_of_length_eq_zero (Nat.le_zero.1 hn)
    cases h
    exact ⟨[], .nil, (by intro i hi; cases hi), rfl⟩
  | succ n ih =>
    simp only [stopLoop, bind_ok_iff, tryP_ok_iff] at h
    obtain ⟨o, ts', ⟨_, rfl, hq⟩ | ⟨rfl, rfl, _⟩, hf⟩ := h
    · obtain rfl := comma_iff.1 hq
      simp only [bind_ok_iff] at hf
      obtain ⟨acc', ts'', ha, hl⟩ := hf
      obtain ⟨us, i, rfl, hi, hs, rfl⟩ := stopPart_ok hp ha
      obtain ⟨is, h1, h2, rfl⟩ := ih (by simp at hn; omega) hl
      exact ⟨i :: is, .cons hi h1, (by intro j hj; cases hj; exact hs), rfl⟩
    · cases hf
      exact ⟨[], .nil, (by intro i hi; cases hi), rfl⟩

theorem stopLoop_of (hc : GradientColors color) {point : P T} {Point : Tok → T → Prop} (hp : PointSpec color point Point)
    {auto : T} {n : Nat} {ts : List Tok} {acc : List (Gradient.Stop K T)} {is : List (Item K T)} (hn : ts.length ≤ n)
    (h : Commas (ItemIs color Point) ts is) (hs : StartsAll acc is) :
    stopLoop (stopP color point auto) n acc ts = .ok (is.foldl (step auto) acc, []) := by
  induction h generalizing acc n with
  | nil =>
    cases n with
    | zero => rfl
    | succ n =>
      have : comma [] = .err := rfl
      simp [stopLoop, bind_run, tryP_err this, pure_run]
  | @cons us i vs is hi hv ih =>
    cases n with
    | zero => simp at hn
    | succ n =>
      have h1 : comma (.comma :: (us ++ vs)) = .ok ((), us ++ vs) := rfl
      have h2 := stopPart_of hc hp (auto := auto) hi (hs i rfl) (commas_after hv)
      have h3 := ih (n := n) (acc := step auto acc i) (by simp at hn; omega) (startsAll_ne (step_ne (hs i rfl)) _)
      simp [stopLoop, bind_run, tryP_ok h1, h2, h3]

/-- With a hint for the last stop, if there is one. -/
def withHint : Option ℚ → List (Gradient.Stop K T) → List (Gradient.Stop K T)
  | none, ss => ss
  | some h, ss => setHint h ss

theorem setHint_setHint (h h' : ℚ) (ss : List (Gradient.Stop K T)) : setHint h (setHint h' ss) = setHint h ss := by
  match ss with
  | [] => rfl
  | [s] => rfl
  | s :: t :: ss =>
    have := setHint_setHint h h' (t :: ss)
    have hn : setHint h' (t :: ss) ≠ [] := setHint_ne (by simp)
    rw [setHint]
    cases he : setHint h' (t :: ss) with
    | nil => exact absurd he hn
    | cons u us => rw [setHint, ← he, this, setHint]

theorem setHint_append (h : ℚ) (ss : List (Gradient.Stop K T)) {ss' : List (Gradient.Stop K T)} (hn : ss' ≠ []) :
    setHint h (ss ++ ss') = ss ++ setHint h ss' := by
  induction ss with
  | nil => rfl
  | cons s ss ih =>
    cases hs : ss ++ ss' with
    | nil => simp [hn] at hs
    | cons t ts => rw [List.cons_append, hs, setHint, ← hs, ih, List.cons_append]

theorem setHint_last (h : ℚ) (ss : List (Gradient.Stop K T)) (s : Gradient.Stop K T) :
    setHint h (ss ++ [s]) = ss ++ [{ s with hint := some h }] := by
  rw [setHint_append h ss (by simp)]; rfl

theorem stopsOf_color (auto : T) (k : K) (ps : List T) (is : List (Item K T)) :
    stopsOf auto (.color k ps :: is) = withHint (leadingHint is) (stopsAt auto k ps) ++ stopsOf auto is := by
  cases ps with
  | nil => cases h : leadingHint is <;> simp [stopsOf, h, withHint, stopsAt, setHint]
  | cons p ps =>
    have : stopsAt auto k (p :: ps) = ((p :: ps).dropLast.map fun p => (⟨k, p, none⟩ : Gradient.Stop K T)) ++
        [⟨k, (p :: ps).getLast (by simp), none⟩] := by
      conv_lhs => rw [stopsAt, ← List.dropLast_append_getLast (l := p :: ps) (by simp)]
      simp
    rw [this, stopsOf]
    cases h : leadingHint is with
    | none => simp [withHint]
    | some q => rw [withHint, setHint_last]; simp

theorem foldl_step (auto : T) (is : List (Item K T)) {acc : List (Gradient.Stop K T)} (hn : acc ≠ []) :
    is.foldl (step auto) acc = withHint (leadingHint is) acc ++ stopsOf auto is := by
  induction is generalizing acc with
  | nil => simp [leadingHint, withHint, stopsOf]
  | cons i is ih =>
    rw [List.foldl_cons, ih (step_ne fun e => absurd e hn)]
    cases i with
    | color k ps =>
      rw [stopsOf_color]
      simp only [step, leadingHint]
      cases h : leadingHint is with
      | none => simp [withHint]
      | some q => simp [withHint, setHint_append q acc (stopsAt_ne auto k ps)]
    | hint q =>
      simp only [step, leadingHint, stopsOf]
      cases h : leadingHint is with
      | none => simp [withHint]
      | some q' => simp [withHint, setHint_setHint]

theorem foldl_color (auto : T) (k : K) (ps : List T) (is : List (Item K T)) :
    (Item.color k ps :: is).foldl (step auto) [] = stopsOf auto (.color k ps :: is) := by
  rw [List.foldl_cons, foldl_step auto is (step_ne fun _ => ⟨_, _, rfl⟩), stopsOf_color]
  simp [step]

theorem foldl_starts (auto : T) {is : List (Item K T)} (h : BeginsWithColor is) : is.foldl (step auto) [] = stopsOf auto is := by
  obtain ⟨k, ps, is', rfl⟩ := h
  exact foldl_color auto k ps is'

theorem insertZero_iff {isZero : T → Bool} {zero auto : T} (hz : ∀ p, isZero p = true ↔ p = zero ∨ p = auto)
    {ss ss' : List (Gradient.Stop K T)} (hn : ss ≠ []) :
    insertZero isZero zero ss = ss' ↔ FromZero (fun p => p = zero ∨ p = auto) zero ss ss' := by
  cases ss with
  | nil => exact absurd rfl hn
  | cons s ss =>
    simp only [insertZero]
    split
    · rename_i h
      constructor
      · rintro rfl; exact .there ((hz _).1 h)
      · intro h'
        cases h' with
        | there => rfl
        | added hb => exact absurd ((hz _).1 h) hb
    · rename_i h
      rw [hz] at h
      constructor
      · rintro rfl; exact .added h
      · intro h'
        cases h' with
        | there hb => exact absurd hb h
        | added => rfl

theorem stopsOf_ne {auto : T} {is : List (Item K T)} (h : BeginsWithColor is) : stopsOf auto is ≠ [] := by
  obtain ⟨k, ps, is, rfl⟩ := h
  rw [stopsOf_color]
  cases leadingHint is with
  | none => simp [withHint, stopsAt_ne]
  | some q => simp [withHint, setHint_ne (stopsAt_ne auto k ps)]

theorem gradientArgs_iff (hc : GradientColors color) {head : P (Option H)} {Form : List Tok → H → Prop}
    (hh : HeadSpec color head Form) {point : P T} {Point : Tok → T → Prop} (hp : PointSpec color point Point)
    {isZero : T → Bool} {zero auto : T} (hz : ∀ p, isZero p = true ↔ p = zero ∨ p = auto) {ts : List Tok} {o : Option H}
    {ss : List (Gradient.Stop K T)} :
    gradientArgs head (stopP color point auto) isZero zero ts = .ok ((o, ss), []) ↔
      (o = none ∧ StopsForm color Point auto zero ts ss) ∨
      ∃ us h vs, us ≠ [] ∧ ts = us ++ .comma :: vs ∧ o = some h ∧ Form us h ∧ StopsForm color Point auto zero vs ss := by
  simp only [gradientArgs, firstPart, bind_ok_iff]
  constructor
  · rintro ⟨⟨o', acc⟩, ts1, ⟨oh, ts2, hhead, hfirst⟩, ss', ts3, hloop, hend⟩
    split at hend
    · cases hend
    · rename_i hne
      simp only [pure_ok_iff, Prod.mk.injEq] at hend
      obtain ⟨⟨rfl, rfl⟩, rfl⟩ := hend
      cases oh with
      | none =>
        obtain rfl := hh.missing _ _ hhead
        simp only [bind_ok_iff, pure_ok_iff, Prod.mk.injEq] at hfirst
        obtain ⟨_, _, hs, ⟨rfl, rfl⟩, rfl⟩ := hfirst
        obtain ⟨us, i, rfl, hi, hst, rfl⟩ := stopPart_ok hp hs
        obtain ⟨is, h1, h2, rfl⟩ := stopLoop_ok hp (Nat.le_refl _) hloop
        obtain ⟨k, ps, rfl⟩ := hst rfl
        refine .inl ⟨rfl, .color k ps :: is, commaSep_commas.2 ⟨_, _, rfl, hi, h1⟩, ⟨_, _, _, rfl⟩, ?_⟩
        have he : is.foldl (step auto) (step auto [] (.color k ps)) = stopsOf auto (.color k ps :: is) := foldl_color auto k ps is
        rw [he] at hne ⊢
        exact (insertZero_iff hz (by simpa using hne)).1 rfl
      | some h =>
        cases hfirst
        obtain ⟨us, hu, rfl, hform⟩ := hh.present _ _ _ hhead
        obtain ⟨is, h1, h2, rfl⟩ := stopLoop_ok hp (Nat.le_refl _) hloop
        cases h1 with
        | nil => simp at hne
        | @cons u i vs is hi hv =>
          obtain ⟨k, ps, rfl⟩ := h2 i rfl rfl
          rw [foldl_color] at hne ⊢
          exact .inr ⟨us, h, _, hu, rfl, rfl, hform, _, commaSep_commas.2 ⟨_, _, rfl, hi, hv⟩, ⟨_, _, _, rfl⟩,
            (insertZero_iff hz (by simpa using hne)).1 rfl⟩
  · rintro (⟨rfl, is, hcs, ⟨k, ps, is, rfl⟩, hz'⟩ | ⟨us, h, vs, hu, rfl, rfl, hform, is, hcs, ⟨k, ps, is, rfl⟩, hz'⟩)
    · obtain ⟨u, v, rfl, hi, hv⟩ := commaSep_commas.1 hcs
      have h1 : head (u ++ v) = .ok (none, u ++ v) := by
        cases hi with
        | color hk _ => exact hh.absent _ _ _ hk
      have h2 := stopPart_of hc hp (auto := auto) hi (acc := []) (fun _ => ⟨_, _, rfl⟩) (commas_after hv)
      have h3 := stopLoop_of hc hp (auto := auto) (Nat.le_refl _) hv
        (startsAll_ne (step_ne (auto := auto) (acc := []) (i := .color k ps) fun _ => ⟨_, _, rfl⟩) _)
      refine ⟨(none, step auto [] (.color k ps)), v, ⟨none, _, h1, ?_⟩, _, [], h3, ?_⟩
      · simp only [bind_ok_iff]; exact ⟨_, _, h2, rfl⟩
      · have he : is.foldl (step auto) (step auto [] (.color k ps)) = stopsOf auto (.color k ps :: is) := foldl_color auto k ps is
        have hne : stopsOf auto (.color k ps :: is) ≠ [] := stopsOf_ne ⟨_, _, _, rfl⟩
        rw [he, if_neg (by simpa using hne), pure_ok_iff]
        exact ⟨by rw [(insertZero_iff hz hne).2 hz'], rfl⟩
    · obtain ⟨u, v, rfl, hi, hv⟩ := commaSep_commas.1 hcs
      have h1 := hh.of us h (u ++ v) hu hform
      have h3 := stopLoop_of hc hp (auto := auto) (acc := []) (Nat.le_refl _) (.cons hi hv)
        (by intro j hj; cases hj; exact fun _ => ⟨_, _, rfl⟩)
      refine ⟨(some h, []), _, ⟨some h, _, h1, rfl⟩, _, [], h3, ?_⟩
      have hne : stopsOf auto (.color k ps :: is) ≠ [] := stopsOf_ne ⟨_, _, _, rfl⟩
      rw [foldl_color, if_neg (by simpa using hne), pure_ok_iff]
      exact ⟨by rw [(insertZero_iff hz hne).2 hz'], rfl⟩

end Flair.Proofs.Gradient
