import Verif.Proofs.LayerBlock
import Verif.Props.Loader
/-!
# C57: layer blocks that contain something declare their layer where they are written
-/
namespace Flair.Props
set_option linter.unusedSectionVars false
open Flair.Spec Flair.Sheet Flair.Layers Flair.Vars Flair.Values Flair.Loader Flair.Proofs.LayerBlock
variable {S M C N T V X Y : Type} [DecidableEq N] [DecidableEq V]
variable (names : C → Option Nat) (typeOk : Nat → V → Bool) (spec : S → Nat)
  (ph : V → PropertyValue V) (rp : S → List S → S) (amp : S)

/-- C57, partial: when every `@layer` block contains a rule, a `@layer` statement or such a block, the order of the
layers is the one in which the blocks declare their layers where they are written. -/
theorem C57_order_partial (src : List (Src S M C N T V X Y)) (hp : Proper src) (hb : BlocksFilled src) {cs : List Path}
    (hcs : CssHistory src cs) : ∃ ds, DocHistory src ds ∧ ∀ x y, Below ds x y ↔ Below cs x y := by
  obtain ⟨ds, h1, h2⟩ := pad_paths (pad_filter (pad_doc src [] hp hb)) hcs
  exact ⟨ds, h1, fun x y => below_pad h2⟩

/-- C57, partial: such a source gives every element the values of the cascade with the layers of CSS. -/
theorem C57_cascade_partial (src : List (Src S M C N T V X Y)) (hp : Proper src) (hb : BlocksFilled src) {cs : List Path}
    (hcs : CssHistory src cs) (mode : ErrorMode) (hmode : mode ≠ .returnError) :
    ∃ b, loadStylesheet rp amp mode src = some (some b) ∧
      ∀ sh, b.build names typeOk spec ph = some (.ok sh) →
      ∀ (isMatch : CssSelector S M → Bool) (inl : List (SrcDecl C N T V X Y))
        (inline : Option (Ruleset (RProp C N T V) N T X Y)) (_ : InlineOf names inl inline)
        (env : N → Option (VarTokens N T)) (ms : List (MRule Nat (PropertyValue V)))
        (_ : List.Forall₂ (SeenAs spec isMatch (Gives names ph env)) (docDecls rp amp [] [] src) ms)
        (minl : List (List (Nat × PropertyValue V)))
        (_ : List.Forall₂ (Gives names .value env) inl minl) (init : Nat → PropertyValue V),
        ∃ out, sh.getPropertyValues names env (sh.matchingIds isMatch) inline init = some out ∧
          ∀ p, ∃ w, Cascade cs ms minl p w ∧ out p = w.getD (init p) := by
  obtain ⟨ds, h1, h2⟩ := pad_paths (pad_filter (pad_doc src [] hp hb)) hcs
  obtain ⟨b, hl, _, _, hall⟩ := C11_document_order names typeOk spec ph rp amp src hp ds h1 mode hmode
  refine ⟨b, hl, ?_⟩
  intro sh hsh isMatch inl inline hin env ms hms minl hminl init
  obtain ⟨out, ho, hw⟩ := (hall sh hsh isMatch inl inline hin).1 env ms hms minl hminl init
  refine ⟨out, ho, fun p => ?_⟩
  obtain ⟨w, hc, he⟩ := hw p
  exact ⟨w, (cascade_pad h2).1 hc, he⟩

/-- The converse shows what is missing: a block without content declares nothing, whatever follows. -/
theorem C57_empty_block_nothing (name : List Char) (inner rest : List (Src S M C N T V X Y)) (ds : List Path)
    (h : ∀ layer, docLayers layer inner = []) : DocHistory (.layerBlock [name] inner :: rest) ds ↔ DocHistory rest ds := by
  unfold DocHistory
  rw [docLayers, h, List.nil_append]

/-- `@layer a { @layer b { rule } } @layer c { rule } @layer a { rule }` -/
example : ∃ src : List (Src Nat Nat Unit Char Char Nat Unit Unit), Proper src ∧ BlocksFilled src ∧
    CssHistory src [[['a']], [['a'], ['b']], [['a'], ['b']], [['c']], [['c']], [['a']], [['a']]] := by
  refine ⟨[.layerBlock [['a']] [.layerBlock [['b']] [.rule (some [1]) []]], .layerBlock [['c']] [.rule (some [1]) []],
    .layerBlock [['a']] [.rule (some [1]) []]], ?_, ?_, ?_⟩
  · simp [Proper, BodyProper]
  · simp only [BlocksFilled, and_true, true_and]
    exact ⟨.inLayer _ _ (.rule _ _ _), .rule _ _ _, .rule _ _ _, .rule _ _ _⟩
  · unfold CssHistory
    simp only [cssLayers, bodyLayers, nestName]
    exact .cons ⟨by decide, rfl⟩ (.cons ⟨by decide, rfl⟩ (.cons ⟨by decide, rfl⟩ (.cons ⟨by decide, rfl⟩
      (.cons ⟨by decide, rfl⟩ (.cons ⟨by decide, rfl⟩ (.cons ⟨by decide, rfl⟩ .nil))))))

end Flair.Props
