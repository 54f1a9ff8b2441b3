import Verif.Spec.VarDecl
import Verif.Proofs.AnimParse2
/-!
# Lemmas for C89: declarations with variables
-/
namespace Flair.Proofs.VarDecl
open Flair.Shorthand Flair.Vars Flair.VarDecl Flair.Spec Flair.Proofs.Parse Flair.Proofs.AnimParse
open Flair.Calc (Res)
open Flair.AnimParse (lower hasVars)

theorem importantAhead_iff {ts : List Tok} : importantAhead ts = true ↔ BeginsImportant ts := by
  constructor
  · intro h
    unfold importantAhead at h
    split at h
    · rename_i r hr
      obtain ⟨u, rest⟩ := r
      rw [bind_ok_iff] at hr
      obtain ⟨_, r1, h1, h2⟩ := hr
      cases ts with
      | nil => cases h1
      | cons t ts =>
        cases t <;> simp [delimIs, tok1, delimTok] at h1
        rename_i c
        split at h1 <;> simp_all
        cases r1 with
        | nil => cases h2
        | cons t ts =>
          cases t <;> simp [identIs, tok1, identTok] at h2
          rename_i s
          split at h2 <;> simp_all
          exact ⟨_, rfl⟩
    · cases h
  · rintro ⟨rest, rfl⟩
    rfl

theorem varName_iff {args : List Tok} {n : String} :
    varName args = some n ↔ ∃ s, args = [.ident s] ∧ s.toList = '-' :: '-' :: n.toList ∧ n.toList ≠ [] := by
  constructor
  · intro h
    unfold varName at h
    split at h
    · rename_i s
      split at h
      · rename_i c cs hs
        cases h
        exact ⟨s, rfl, by simp [hs], by simp⟩
      · cases h
    · cases h
  · rintro ⟨s, rfl, hs, hn⟩
    simp only [varName, hs]
    cases h : n.toList with
    | nil => exact absurd h hn
    | cons c cs =>
      simp only [Option.some.injEq]
      rw [← h, String.ofList_toList]

mutual
/-- The tokens of a text without variables. -/
def spell : Tok → List VTok
  | .func f args => .opens f :: (spells args ++ [.closes])
  | t => [.plain t]
/-- The same for a list. -/
def spells : List Tok → List VTok
  | [] => []
  | t :: ts => spell t ++ spells ts
end

theorem spells_append (us vs : List Tok) : spells (us ++ vs) = spells us ++ spells vs := by
  induction us with
  | nil => rfl
  | cons t us ih => simp [spells, ih]

theorem spell_plain {carried : Nat → Bool} {t : Tok} (h : KeptToken carried t) : spell t = [.plain t] := by
  cases h <;> rfl

theorem flat_plain {carried : Nat → Bool} {t : Tok} (h : KeptToken carried t) :
    flat carried t = some [.token (.plain t)] := by
  cases h with
  | other h => simp [flat, plainTok, h]
  | _ => rfl

mutual
theorem build_spell (t : Tok) (rest : List VTok) (st : List (String × List Tok)) (cur : List Tok) :
    build (spell t ++ rest) st cur = build rest st (cur ++ [t]) := by
  match t with
  | .func f args =>
    simp only [spell, List.cons_append, List.append_assoc, List.nil_append]
    rw [build, build_spells args, List.nil_append, build]
  | .ident s | .number s | .percentage s | .dimension _ _ | .delim _ | .comma | .paren _ | .other _ | .quoted _ =>
    simp only [spell, List.cons_append, List.nil_append]
    rw [build]
theorem build_spells (ts : List Tok) (rest : List VTok) (st : List (String × List Tok)) (cur : List Tok) :
    build (spells ts ++ rest) st cur = build rest st (cur ++ ts) := by
  match ts with
  | [] => simp [spells]
  | t :: ts =>
    simp only [spells, List.append_assoc]
    rw [build_spell t, build_spells ts, List.append_assoc]
    rfl
end

theorem build_all (ts : List Tok) : build (spells ts) [] [] = ts := by
  have := build_spells ts [] [] []
  simpa [build] using this

variable {env : String → Option (VarTokens String VTok)}

theorem resolve_append {d : Nat} {v w : VarTokens String VTok} {out : List VTok} :
    resolveInner env (d + 1) (v ++ w) out = (resolveInner env (d + 1) v out).bind fun o => resolveInner env (d + 1) w o := by
  rw [resolveInner, List.foldlM_append]
  rfl

theorem resolve_token {d : Nat} {t : VTok} {out : List VTok} :
    resolveInner env (d + 1) [.token t] out = .ok (out ++ [t]) := by
  rw [resolveInner]; rfl

theorem resolve_var {d : Nat} {n : String} {out : List VTok} :
    resolveInner env (d + 1) [.var n] out =
      match env n with
      | none => .error (.unknownVarName n)
      | some inner => resolveInner env d inner out := by
  rw [resolveInner]
  simp only [List.foldlM_cons, List.foldlM_nil]
  cases env n with
  | none => rfl
  | some inner => simp

theorem resolve_nil {d : Nat} {out : List VTok} : resolveInner env (d + 1) [] out = .ok out := by
  rw [resolveInner]; rfl

variable {carried : Nat → Bool} {texts : String → Option (List Tok)}

theorem beginsImportant_func {f : String} {args ts : List Tok} : ¬ BeginsImportant (.func f args :: ts) := by
  rintro ⟨rest, h⟩; cases h

theorem flats_cons {t : Tok} {ts : List Tok} {v w : VarTokens String VTok} (hi : ¬ BeginsImportant (t :: ts))
    (ht : flat carried t = some v) (hs : flats carried ts = (w, [])) : flats carried (t :: ts) = (v ++ w, []) := by
  rw [flats, if_neg (mt importantAhead_iff.1 hi), ht, hs]

theorem replaced_forward {d : Nat} {ts us : List Tok} (h : Replaced carried texts d ts us) :
    ∃ v, flats carried ts = (v, []) ∧
      ∀ out, resolveInner (environment carried texts) (d + 1) v out = .ok (out ++ spells us) := by
  induction h with
  | nil => exact ⟨[], rfl, fun out => by simp [resolve_nil, spells]⟩
  | token hk hi _ ih =>
    obtain ⟨v, h1, h2⟩ := ih
    refine ⟨_, flats_cons hi (flat_plain hk) h1, fun out => ?_⟩
    rw [resolve_append, resolve_token]
    simp [Except.bind, h2, spells, spell_plain hk]
  | @func d f args args' ts us hf _ _ ih1 ih2 =>
    obtain ⟨v1, h1, h2⟩ := ih1
    obtain ⟨v2, h3, h4⟩ := ih2
    have e : flat carried (.func f args) = some (.token (.opens f) :: (v1 ++ [.token .closes])) := by
      simp [flat, h1, mt lower_iff.1 hf]
    refine ⟨_, flats_cons beginsImportant_func e h3, fun out => ?_⟩
    have : VarOrToken.token (VTok.opens f) :: (v1 ++ [VarOrToken.token VTok.closes]) ++ v2 =
        [.token (.opens f)] ++ (v1 ++ ([.token .closes] ++ v2)) := by simp
    rw [this, resolve_append, resolve_token]
    simp only [Except.bind]
    rw [resolve_append, h2]
    simp only [Except.bind]
    rw [resolve_append, resolve_token]
    simp only [Except.bind]
    rw [h4]
    simp [spells, spell]
  | @var d f s n vs vs' ts us hf hs hn ht _ _ ih1 ih2 =>
    obtain ⟨v1, h1, h2⟩ := ih1
    obtain ⟨v2, h3, h4⟩ := ih2
    have e : flat carried (.func f [.ident s]) = some [.var n] := by
      rw [flat, if_pos (lower_iff.2 hf), varName_iff.2 ⟨s, rfl, hs, hn⟩]
      rfl
    refine ⟨_, flats_cons beginsImportant_func e h3, fun out => ?_⟩
    have e2 : environment carried texts n = some v1 := by simp [environment, ht, variableTokens, h1]
    rw [resolve_append, resolve_var, e2]
    simp only [h2, Except.bind]
    rw [h4]
    simp [spells_append]

theorem bind_except {ε α β : Type} {r : Except ε α} {f : α → Except ε β} {b : β} :
    r.bind f = .ok b ↔ ∃ a, r = .ok a ∧ f a = .ok b := by
  cases r <;> simp [Except.bind]

theorem flats_inv {t : Tok} {ts : List Tok} {v : VarTokens String VTok} (h : flats carried (t :: ts) = (v, [])) :
    ¬ BeginsImportant (t :: ts) ∧ ∃ v1 v2, flat carried t = some v1 ∧ flats carried ts = (v2, []) ∧ v = v1 ++ v2 := by
  rw [flats] at h
  split at h
  · cases h
  · rename_i hi
    refine ⟨fun hb => hi (importantAhead_iff.2 hb), ?_⟩
    split at h
    · cases h
    · rename_i v1 h1
      cases hf : flats carried ts with
      | mk a b =>
        rw [hf] at h
        cases h
        exact ⟨v1, a, h1, rfl, rfl⟩

theorem flat_inv {t : Tok} {v : VarTokens String VTok} (h : flat carried t = some v) :
    (KeptToken carried t ∧ v = [.token (.plain t)]) ∨
    (∃ f args n s, t = .func f args ∧ Caseless f "var" ∧ args = [.ident s] ∧ s.toList = '-' :: '-' :: n.toList ∧
      n.toList ≠ [] ∧ v = [.var n]) ∨
    (∃ f args w, t = .func f args ∧ ¬ Caseless f "var" ∧ flats carried args = (w, []) ∧
      v = .token (.opens f) :: (w ++ [.token .closes])) := by
  cases t with
  | func f args =>
    rw [flat] at h
    split at h
    · rename_i hf
      simp only [Option.map_eq_some_iff] at h
      obtain ⟨n, h, rfl⟩ := h
      obtain ⟨s, rfl, hs, hn⟩ := varName_iff.1 h
      exact .inr (.inl ⟨f, _, n, s, rfl, lower_iff.1 hf, rfl, hs, hn, rfl⟩)
    · rename_i hf
      split at h
      · rename_i he
        cases hw : flats carried args with
        | mk a b =>
          rw [hw] at h he
          cases h
          have : b = [] := List.isEmpty_iff.1 he
          subst this
          exact .inr (.inr ⟨f, args, a, rfl, fun hc => hf (lower_iff.2 hc), hw, rfl⟩)
      · cases h
  | paren ts => simp [flat, plainTok] at h
  | other n =>
    simp only [flat, plainTok] at h
    split at h
    · cases h; rename_i hc; exact .inl ⟨.other hc, rfl⟩
    · cases h
  | ident s => cases h; exact .inl ⟨.ident, rfl⟩
  | number s => cases h; exact .inl ⟨.number, rfl⟩
  | percentage s => cases h; exact .inl ⟨.percentage, rfl⟩
  | dimension s => cases h; exact .inl ⟨.dimension, rfl⟩
  | delim s => cases h; exact .inl ⟨.delim, rfl⟩
  | comma => cases h; exact .inl ⟨.comma, rfl⟩
  | quoted s => cases h; exact .inl ⟨.quoted, rfl⟩

/-- What holds one level further down. -/
def Down (carried : Nat → Bool) (texts : String → Option (List Tok)) (d : Nat) : Prop :=
  ∀ ts v out out', flats carried ts = (v, []) → resolveInner (environment carried texts) d v out = .ok out' →
    ∃ us d', d = d' + 1 ∧ Replaced carried texts d' ts us ∧ out' = out ++ spells us

mutual
theorem back_tok {d : Nat} (hd : Down carried texts d) (t : Tok) {v : VarTokens String VTok} {out out' : List VTok}
    (h : flat carried t = some v) (hr : resolveInner (environment carried texts) (d + 1) v out = .ok out') :
    ∃ w, out' = out ++ spells w ∧ ∀ ts us, ¬ BeginsImportant (t :: ts) → Replaced carried texts d ts us →
      Replaced carried texts d (t :: ts) (w ++ us) := by
  rcases flat_inv h with ⟨hk, rfl⟩ | ⟨f, args, n, s, rfl, hf, rfl, hs, hn, rfl⟩ | ⟨f, args, w, rfl, hf, hw, rfl⟩
  · rw [resolve_token] at hr
    cases hr
    exact ⟨[t], by simp [spells, spell_plain hk], fun ts us hi hr => .token hk hi hr⟩
  · rw [resolve_var] at hr
    cases he : environment carried texts n with
    | none => rw [he] at hr; cases hr
    | some inner =>
      rw [he] at hr
      simp only at hr
      simp only [environment, Option.bind_eq_some_iff, variableTokens] at he
      obtain ⟨vs, hvs, hi⟩ := he
      split at hi
      · rename_i hem
        have hfl : flats carried vs = (inner, []) := by
          cases hf : flats carried vs with
          | mk a b =>
            rw [hf] at hi hem
            cases hi
            have : b = [] := List.isEmpty_iff.1 hem
            rw [this]
        obtain ⟨us, d', rfl, hrep, rfl⟩ := hd vs inner out out' hfl hr
        exact ⟨us, rfl, fun ts us' _ hr' => .var hf hs hn hvs hrep hr'⟩
      · cases hi
  · have : VarOrToken.token (VTok.opens f) :: (w ++ [VarOrToken.token VTok.closes]) =
        [.token (.opens f)] ++ (w ++ [.token .closes]) := by simp
    rw [this, resolve_append, resolve_token] at hr
    simp only [Except.bind] at hr
    rw [resolve_append, bind_except] at hr
    obtain ⟨o, ho, hc⟩ := hr
    rw [resolve_token] at hc
    cases hc
    obtain ⟨us, hrep, rfl⟩ := back_list hd args hw ho
    exact ⟨[.func f us], by simp [spells, spell], fun ts us' _ hr' => .func hf hrep hr'⟩
theorem back_list {d : Nat} (hd : Down carried texts d) (ts : List Tok) {v : VarTokens String VTok} {out out' : List VTok}
    (h : flats carried ts = (v, [])) (hr : resolveInner (environment carried texts) (d + 1) v out = .ok out') :
    ∃ us, Replaced carried texts d ts us ∧ out' = out ++ spells us := by
  match ts with
  | [] =>
    cases h
    rw [resolve_nil] at hr
    cases hr
    exact ⟨[], .nil, by simp [spells]⟩
  | t :: ts =>
    obtain ⟨hi, v1, v2, h1, h2, rfl⟩ := flats_inv h
    rw [resolve_append, bind_except] at hr
    obtain ⟨o, ho, hr⟩ := hr
    obtain ⟨w, rfl, hw⟩ := back_tok hd t h1 ho
    obtain ⟨us, hus, rfl⟩ := back_list hd ts h2 hr
    exact ⟨w ++ us, hw ts us hi hus, by simp [spells_append]⟩
end

theorem down (d : Nat) : Down carried texts d := by
  induction d with
  | zero =>
    intro ts v out out' _ hr
    simp [resolveInner] at hr
  | succ d ih =>
    intro ts v out out' h hr
    obtain ⟨us, h1, h2⟩ := back_list ih ts h hr
    exact ⟨us, d, rfl, h1, h2⟩

theorem replaced_iff {ts : List Tok} {v : VarTokens String VTok} (h : flats carried ts = (v, [])) {out : List VTok} :
    resolve (environment carried texts) v = .ok out ↔ ∃ us, Replaced carried texts 7 ts us ∧ out = spells us := by
  constructor
  · intro hr
    obtain ⟨us, d', e, h1, h2⟩ := down (carried := carried) (texts := texts) 8 ts v [] out h hr
    cases e
    exact ⟨us, h1, by simpa using h2⟩
  · rintro ⟨us, hr, rfl⟩
    obtain ⟨v', h1, h2⟩ := replaced_forward hr
    rw [h] at h1
    cases h1
    have := h2 []
    rw [List.nil_append] at this
    exact this

/-! ## `!important` at the end -/

theorem flats_split {ts rest : List Tok} {v : VarTokens String VTok} (h : flats carried ts = (v, rest)) :
    ∃ us, ts = us ++ rest ∧ flats carried us = (v, []) := by
  induction ts generalizing v with
  | nil => cases h; exact ⟨[], rfl, rfl⟩
  | cons t ts ih =>
    rw [flats] at h
    split at h
    · cases h; exact ⟨[], rfl, rfl⟩
    · rename_i hi
      split at h
      · cases h; exact ⟨[], rfl, rfl⟩
      · rename_i v1 h1
        cases hf : flats carried ts with
        | mk a b =>
          rw [hf] at h
          cases h
          obtain ⟨us, rfl, hus⟩ := ih hf
          refine ⟨t :: us, rfl, flats_cons ?_ h1 hus⟩
          rintro ⟨r, hr⟩
          apply hi
          rw [importantAhead_iff]
          cases us with
          | nil => cases hr
          | cons u us => cases hr; exact ⟨_, rfl⟩

theorem flats_end {us : List Tok} {v : VarTokens String VTok} (imp : Bool) (h : flats carried us = (v, [])) :
    flats carried (us ++ declEnd imp) = (v, declEnd imp) := by
  induction us generalizing v with
  | nil =>
    cases h
    cases imp
    · rfl
    · simp only [List.nil_append, declEnd]
      rfl
  | cons t us ih =>
    obtain ⟨hi, v1, v2, h1, h2, rfl⟩ := flats_inv h
    have : ¬ BeginsImportant (t :: (us ++ declEnd imp)) := by
      rintro ⟨r, hr⟩
      cases us with
      | nil =>
        cases imp
        · cases hr
        · simp [declEnd] at hr
      | cons u us => cases hr; exact hi ⟨_, rfl⟩
    rw [List.cons_append, flats, if_neg (mt importantAhead_iff.1 this), h1, ih h2]

theorem consume_iff {ts : List Tok} {v : VarTokens String VTok} {imp : Bool} :
    consume carried ts = .ok (v, imp) ↔ ∃ us, ts = us ++ declEnd imp ∧ flats carried us = (v, []) := by
  unfold consume
  constructor
  · intro h
    obtain ⟨⟨i, rest⟩, hi, h⟩ := bind_ok.1 h
    simp only at h
    split at h
    · rename_i he
      cases h
      have : rest = [] := List.isEmpty_iff.1 he
      subst this
      obtain ⟨us, hts, hus⟩ := flats_split (carried := carried) (ts := ts) rfl
      have := important_nil hi
      exact ⟨us, by rw [← this]; exact hts, hus⟩
    · cases h
  · rintro ⟨us, rfl, hus⟩
    rw [flats_end imp hus]
    refine bind_ok.2 ⟨_, important_end imp, ?_⟩
    rfl

end Flair.Proofs.VarDecl
