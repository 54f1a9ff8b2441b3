import Verif.Proofs.FileTree
import Verif.Props.SheetTree
/-!
# The files on a disk: names of layers
-/
namespace Flair.Proofs.FileTree
set_option linter.unusedSectionVars false
open Flair.File Flair.Spec Flair.Sheet Flair.Layers Flair.Vars Flair.Values Flair.Loader Flair.SheetTree
open Flair.Proofs.File
variable {S M C N T V A B : Type} [DecidableEq N] {p : Parsers S M C N T V A B}

/-- the name of a layer, or nothing -/
def LayerOk (t : List Char) : Prop := ∃ P : Path, (P = [] ∨ P.WF) ∧ t = P.dotted

theorem layerOk_nil : LayerOk [] := ⟨[], Or.inl rfl, rfl⟩

theorem layerOk_one {c : List Char} (h : c ≠ [] ∧ '.' ∉ c) : LayerOk c :=
  ⟨[c], Or.inr ⟨by simp, by simpa using h⟩, rfl⟩

theorem layerOk_nest {x y : List Char} (hx : LayerOk x) (hy : LayerOk y) : LayerOk (nestName x y) := by
  obtain ⟨A, hA, rfl⟩ := hx
  obtain ⟨P, hP, rfl⟩ := hy
  unfold nestName
  rcases hA with rfl | hA
  · simp only [Path.dotted, if_true]; exact ⟨P, hP, rfl⟩
  · rw [if_neg (dotted_ne_nil A hA)]
    rcases hP with rfl | hP
    · simp only [Path.dotted, if_true]; exact ⟨A, Or.inr hA, rfl⟩
    · rw [if_neg (dotted_ne_nil P hP)]
      refine ⟨A ++ P, Or.inr ⟨by simp [hA.1], ?_⟩, by rw [dotted_append A hA.1 P hP.1]; simp⟩
      intro c hc
      rcases List.mem_append.mp hc with hc | hc
      · exact hA.2 c hc
      · exact hP.2 c hc

theorem history_of {ts : List (List Char)} (h : ∀ t ∈ ts, LayerOk t) :
    ∃ ds : List Path, List.Forall₂ (fun (t : List Char) (p : Path) => p.WF ∧ t = p.dotted) (ts.filter (fun t => t ≠ [])) ds := by
  induction ts with
  | nil => exact ⟨[], .nil⟩
  | cons t ts ih =>
    obtain ⟨ds, hds⟩ := ih fun x hx => h x (List.mem_cons_of_mem _ hx)
    obtain ⟨P, hP, e⟩ := h t List.mem_cons_self
    by_cases ht : t = []
    · exact ⟨ds, by simpa [ht] using hds⟩
    · refine ⟨P :: ds, ?_⟩
      rw [List.filter_cons, if_pos (by simpa using ht)]
      refine .cons ⟨?_, e⟩ hds
      rcases hP with rfl | hP
      · exact absurd e ht
      · exact hP

/-! ## plain parts of plain files -/

theorem plain_of {ns ms : List Node} (h : PlainLayers ms) (hs : ∀ n, Within n ns → Within n ms) : PlainLayers ns :=
  fun name prelude block hw => h name prelude block (hs _ hw)

theorem plain_tail {n : Node} {ns : List Node} (h : PlainLayers (n :: ns)) : PlainLayers ns :=
  plain_of h fun _ hw => within_cons hw

theorem plain_head {n : Node} {ns : List Node} (h : PlainLayers (n :: ns)) : PlainLayers [n] :=
  plain_of h fun _ hw => within_mono (by simp) hw

theorem plain_rule {lead prelude block} (h : PlainLayers [.qualified lead prelude block]) : PlainLayers block :=
  plain_of h fun n hw => .inRule n lead prelude block _ (by simp) hw

theorem plain_block {name prelude block} (h : PlainLayers [.atRule name prelude (some block)]) : PlainLayers block :=
  plain_of h fun n hw => .inBlock n name prelude block _ (by simp) hw

theorem bodyProper_cons {i : FBody S M C N T V A B} {is : List (FBody S M C N T V A B)} (h1 : BodyProper [i])
    (h2 : BodyProper is) : BodyProper (i :: is) := by
  cases i <;> simp_all [BodyProper]

theorem bodyLayers_cons (layer : List Char) (i : FBody S M C N T V A B) (is : List (FBody S M C N T V A B)) :
    bodyLayers layer (i :: is) = bodyLayers layer [i] ++ bodyLayers layer is := by
  cases i with
  | rule sels body => cases sels <;> simp [bodyLayers]
  | _ => simp [bodyLayers]

theorem readDecl_proper (name : Text) (value : List Tok) :
    BodyProper [readDecl p name value] ∧ ∀ layer, bodyLayers layer [readDecl p name value] = [] := by
  have h : (∃ ds, readDecl p name value = .decls ds) ∨ readDecl p name value = .error := by
    unfold readDecl declared
    split
    · split
      · exact Or.inl ⟨_, rfl⟩
      · exact Or.inr rfl
    · split
      · split
        · split
          · exact Or.inl ⟨_, rfl⟩
          · exact Or.inr rfl
        · exact Or.inr rfl
      · split
        · split
          · split
            · exact Or.inl ⟨_, rfl⟩
            · exact Or.inr rfl
          · exact Or.inr rfl
        · split
          · exact Or.inl ⟨_, rfl⟩
          · exact Or.inr rfl
  rcases h with ⟨ds, h⟩ | h <;> rw [h] <;> simp [BodyProper, bodyLayers]

mutual
theorem item_proper (hs : SomeSelectors p) : ∀ n : Node, PlainLayers [n] →
    BodyProper [readItem p n] ∧ ∀ layer, LayerOk layer → ∀ t ∈ bodyLayers layer [readItem p n], LayerOk t
  | .declaration name value, _ => by
    rw [readItem]
    obtain ⟨h1, h2⟩ := readDecl_proper (p := p) name value
    exact ⟨h1, fun layer _ t ht => by rw [h2] at ht; cases ht⟩
  | .qualified lead prelude block, h => by
    obtain ⟨h1, h2⟩ := body_proper hs block (plain_rule h)
    rw [readItem]
    refine ⟨by simp only [BodyProper, and_true]; exact ⟨hs _ _, h1⟩, fun layer hl t ht => ?_⟩
    cases hsel : p.selectors true prelude with
    | none => rw [hsel] at ht; simp [bodyLayers] at ht
    | some ss => rw [hsel] at ht; simp only [bodyLayers, List.append_nil] at ht; exact h2 layer hl t ht
  | .atRule name prelude none, _ => by
    rw [readItem]
    simp [BodyProper, bodyLayers]
  | .atRule name prelude (some block), h => by
    obtain ⟨h1, h2⟩ := body_proper hs block (plain_block h)
    rw [readItem]
    split
    · split
      · refine ⟨by simp only [BodyProper, and_true]; exact h1, fun layer hl t ht => ?_⟩
        simp only [bodyLayers, List.append_nil] at ht
        exact h2 layer hl t ht
      · simp [BodyProper, bodyLayers]
    · split
      · rename_i hn
        split
        · rename_i l hl
          rw [oneName_iff] at hl
          have hlo := h name prelude (some block) (.here _ _ (by simp)) (Or.inl hn) l (.direct _ (by simp [hl]))
          refine ⟨by simp only [BodyProper, and_true]; exact ⟨hlo.1, h1⟩, fun layer hlayer t ht => ?_⟩
          have hok := layerOk_nest hlayer (layerOk_one hlo)
          simp only [bodyLayers, List.append_nil, List.mem_cons] at ht
          rcases ht with rfl | ht
          · exact hok
          · exact h2 _ hok t ht
        · simp [BodyProper, bodyLayers]
      · simp [BodyProper, bodyLayers]
  | .bad, _ => by
    rw [readItem]
    simp [BodyProper, bodyLayers]
theorem body_proper (hs : SomeSelectors p) : ∀ ns : List Node, PlainLayers ns →
    BodyProper (readBody p ns) ∧ ∀ layer, LayerOk layer → ∀ t ∈ bodyLayers layer (readBody p ns), LayerOk t
  | [], _ => by
    rw [readBody]
    simp [BodyProper, bodyLayers]
  | n :: ns, h => by
    obtain ⟨h1, h2⟩ := item_proper hs n (plain_head h)
    obtain ⟨h3, h4⟩ := body_proper hs ns (plain_tail h)
    rw [readBody]
    refine ⟨bodyProper_cons h1 h3, fun layer hl t ht => ?_⟩
    rw [bodyLayers_cons] at ht
    rcases List.mem_append.mp ht with ht | ht
    · exact h2 layer hl t ht
    · exact h4 layer hl t ht
end

theorem proper_cons {i : FSrc S M C N T V A B} {is : List (FSrc S M C N T V A B)} (h1 : Proper [i])
    (h2 : Proper is) : Proper (i :: is) := by
  cases i <;> simp_all [Proper]

theorem docLayers_cons (layer : List Char) (i : FSrc S M C N T V A B) (is : List (FSrc S M C N T V A B)) :
    docLayers layer (i :: is) = docLayers layer [i] ++ docLayers layer is := by
  cases i with
  | rule sels body => cases sels <;> simp [docLayers]
  | layerBlock names inner =>
    match names with
    | [] => simp [docLayers]
    | [_] => simp [docLayers]
    | _ :: _ :: _ => simp [docLayers]
  | _ => simp [docLayers]

theorem commaNames_mem : ∀ {ts : List Tok} {ls : List Text} {l : Text}, commaNames ts = some ls → l ∈ ls → NameIn l ts := by
  intro ts ls l h hl
  rw [← layerNames_eq] at h
  exact layerNames_name h hl

mutual
theorem rule_proper (hs : SomeSelectors p) : ∀ n : Node, PlainLayers [n] →
    Proper [readRule p n] ∧ ∀ layer, LayerOk layer → ∀ t ∈ docLayers layer [readRule p n], LayerOk t
  | .declaration name value, _ => by
    rw [readRule]
    simp [Proper, docLayers]
  | .qualified lead prelude block, h => by
    obtain ⟨h1, h2⟩ := body_proper hs block (plain_rule h)
    rw [readRule]
    refine ⟨by simp only [Proper, and_true]; exact ⟨hs _ _, h1⟩, fun layer hl t ht => ?_⟩
    cases hsel : p.selectors false prelude with
    | none => rw [hsel] at ht; simp [docLayers] at ht
    | some ss =>
      rw [hsel] at ht
      simp only [docLayers, List.append_nil, List.mem_cons] at ht
      rcases ht with rfl | ht
      · exact hl
      · exact h2 layer hl t ht
  | .atRule name prelude none, h => by
    rw [readRule]
    split
    · rename_i hn
      split
      · rename_i ls hls
        have hlo : ∀ l ∈ ls, l ≠ [] ∧ '.' ∉ l := fun l hl =>
          h name prelude none (.here _ _ (by simp)) (Or.inl hn) l (commaNames_mem hls hl)
        refine ⟨by simp only [Proper, and_true]; exact fun l hl => (hlo l hl).1, fun layer hlayer t ht => ?_⟩
        simp only [docLayers, List.append_nil, List.mem_map] at ht
        obtain ⟨l, hl, rfl⟩ := ht
        exact layerOk_nest hlayer (layerOk_one (hlo l hl))
      · simp [Proper, docLayers]
    · simp [Proper, docLayers]
  | .atRule name prelude (some block), h => by
    obtain ⟨h1, h2⟩ := rules_proper hs block (plain_block h)
    rw [readRule]
    split
    · split
      · refine ⟨by simp only [Proper, and_true]; exact h1, fun layer hl t ht => ?_⟩
        simp only [docLayers, List.append_nil] at ht
        exact h2 layer hl t ht
      · simp [Proper, docLayers]
    · split
      · rename_i hn
        split
        · rename_i l hl
          rw [oneName_iff] at hl
          have hlo := h name prelude (some block) (.here _ _ (by simp)) (Or.inl hn) l (.direct _ (by simp [hl]))
          refine ⟨by simp only [Proper, and_true]; exact ⟨by simpa using hlo.1, h1⟩, fun layer hlayer t ht => ?_⟩
          simp only [docLayers, List.append_nil] at ht
          exact h2 _ (layerOk_nest hlayer (layerOk_one hlo)) t ht
        · simp [Proper, docLayers]
      · simp [Proper, docLayers]
  | .bad, _ => by
    rw [readRule]
    simp [Proper, docLayers]
theorem rules_proper (hs : SomeSelectors p) : ∀ ns : List Node, PlainLayers ns →
    Proper (readRules p ns) ∧ ∀ layer, LayerOk layer → ∀ t ∈ docLayers layer (readRules p ns), LayerOk t
  | [], _ => by
    rw [readRules]
    simp [Proper, docLayers]
  | n :: ns, h => by
    obtain ⟨h1, h2⟩ := rule_proper hs n (plain_head h)
    obtain ⟨h3, h4⟩ := rules_proper hs ns (plain_tail h)
    rw [readRules]
    refine ⟨proper_cons h1 h3, fun layer hl t ht => ?_⟩
    rw [docLayers_cons] at ht
    rcases List.mem_append.mp ht with ht | ht
    · exact h2 layer hl t ht
    · exact h4 layer hl t ht
end

theorem tree_proper [DecidableEq V] (rp : S → List S → S) (amp : S) (hs : SomeSelectors p) {mode : Text → ErrorMode}
    {disk : Text → Option (List Node)} (hd : ∀ path nodes, disk path = some nodes → PlainLayers nodes) {path : Text} {parts}
    (h : FileTree p mode disk path parts) :
    TreeProper rp amp parts ∧ ∀ t ∈ treeLayers rp amp parts, LayerOk t := by
  refine FileTree.rec (motive_1 := fun _ parts _ => TreeProper rp amp parts ∧ ∀ t ∈ treeLayers rp amp parts, LayerOk t)
    (motive_2 := fun ns parts _ => PlainLayers ns → TreeProper rp amp parts ∧ ∀ t ∈ treeLayers rp amp parts, LayerOk t)
    ?_ ?_ ?_ ?_ ?_ h
  · intro path nodes parts hp _ ih
    exact ih (hd _ _ hp)
  · intro _
    simp [TreeProper, treeLayers]
  · intro n u l ns parts rest hi _ _ ih1 ih2 hpl
    obtain ⟨a1, a2⟩ := ih2 (plain_tail hpl)
    have hl : ∀ x, l = some x → x ≠ [] ∧ '.' ∉ x := by
      rintro x rfl
      cases hi with
      | layer name t u f l hn ht hf =>
        exact hpl name _ none (.here _ _ List.mem_cons_self) (Or.inr hn) x
          (.inside f [.ident x] _ (by simp) (by simp))
    have hlo : LayerOk (l.getD []) := by
      cases l with
      | none => exact layerOk_nil
      | some x => exact layerOk_one (hl x rfl)
    rw [TreeProper, treeLayers]
    refine ⟨⟨?_, history_of ih1.2, ih1.1, a1⟩, ?_⟩
    · rintro rfl
      exact (hl [] rfl).1 rfl
    · intro t ht
      rcases List.mem_append.mp ht with ht | ht
      · obtain ⟨r, hr, ht⟩ := List.mem_flatMap.mp ht
        obtain ⟨s, hsel, rfl⟩ := List.mem_map.mp ht
        exact layerOk_nest hlo (ih1.2 _ (Props.tree_layer rp amp parts ih1.1 r hr s hsel))
      · exact a2 t ht
  · intro n ns rest _ _ ih hpl
    exact ih (plain_tail hpl)
  · intro n ns rest _ _ _ ih hpl
    obtain ⟨a1, a2⟩ := ih (plain_tail hpl)
    obtain ⟨b1, b2⟩ := rule_proper hs n (plain_head hpl)
    rw [TreeProper, treeLayers]
    refine ⟨⟨b1, a1⟩, fun t ht => ?_⟩
    rcases List.mem_append.mp ht with ht | ht
    · exact b2 [] layerOk_nil t ht
    · exact a2 t ht

end Flair.Proofs.FileTree
