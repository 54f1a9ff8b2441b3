import Verif.Spec.Defaults
import Verif.Spec.Reflect
import Verif.Props.Registry
import Verif.Props.Shorthand
/-!
# C87: every built-in name leads to its field
-/
namespace Flair.Props
open Flair.Defaults Flair.Reflect Flair.Registry Flair.Spec

set_option maxRecDepth 100000

/-- The built-in plugin starts without a panic, and does the registrations of `builtinOps`. -/
theorem C87_build : build = regHistory .none builtinOps ∧ build.isSome ∧ buildCss.isSome := by
  refine ⟨rfl, by rfl, by rfl⟩

private theorem css_mono : ∀ (ops : List (CssOp String Name)) (c c' : Css String Name),
    ops.foldlM CssOp.run c = some c' → ∀ n x, c.properties n = some x → c'.properties n = some x
  | [], c, c', h, n, x, hx => by
    simp only [List.foldlM_nil, Option.pure_def, Option.some.injEq] at h
    rw [← h]
    exact hx
  | op :: ops, c, c', h, n, x, hx => by
    rw [List.foldlM_cons] at h
    obtain ⟨d, hd, h⟩ := Option.bind_eq_some_iff.1 h
    refine css_mono ops d c' h n x ?_
    cases op with
    | property m q =>
      simp only [CssOp.run, Css.registerProperty] at hd
      split at hd
      · cases hd
      · rename_i hm
        cases hd
        have : n ≠ m := by
          rintro rfl
          rw [hx] at hm
          exact hm rfl
        simp [this, hx]
    | shorthand m qs =>
      simp only [CssOp.run, Css.registerShorthand] at hd
      split at hd
      · cases hd
      · split at hd
        · cases hd
        · cases hd
          exact hx

private theorem css_build : ∃ c, buildCss = some c ∧ (∀ x ∈ cssNames, c.properties x.1 = some (.name x.2)) := by
  obtain ⟨c, hc⟩ := Option.isSome_iff_exists.1 C87_build.2.2
  refine ⟨c, hc, ?_⟩
  have : (cssNames.all fun x => buildCss.any fun c => (match c.properties x.1 with | some (.name y) => y == x.2 | _ => false)) = true := by
    rfl
  rw [hc] at this
  intro x hx
  have h := List.all_eq_true.1 this x hx
  simp only [Option.any_some] at h
  cases hp : c.properties x.1 with
  | none => rw [hp] at h; cases h
  | some y =>
    rw [hp] at h
    cases y with
    | id i => cases h
    | name y => simp at h; rw [h]

/-- **Every built-in css name leads to its field**: whatever components, properties and css names an application adds
(without a panic), each css name of the table is resolved to a property, which is the one of the table: it is a
property of its component and its path is the one of the table. -/
theorem C87_names (app : List (RegOp Name String Unset)) (appCss : List (CssOp String Name))
    (r : Reg Name String Unset) (c : Css String Name) (hr : regHistory .none (builtinOps ++ app) = some r)
    (hc : (buildCss.bind fun c => appCss.foldlM CssOp.run c) = some c)
    {css t : String} {p : Path} (h : (css, t, p) ∈ cssNames) :
    ∃ i start stop l u, c.resolveProperty r css = some i ∧ r.props[i]? = some (t, p) ∧ (t, l) ∈ components ∧
      (p, u) ∈ l.properties ∧ r.component t = some (t, start, stop) ∧ start ≤ i ∧ i < stop := by
  obtain ⟨c0, h0, hnames⟩ := css_build
  rw [h0] at hc
  have hcss := css_mono appCss c0 c hc css _ (hnames _ h)
  have hex : ∃ l u, (t, l) ∈ components ∧ (p, u) ∈ l.properties := by
    have : (cssNames.all fun x => components.any fun y => y.1 == x.2.1 && y.2.properties.any fun q => q.1 == x.2.2) = true := by
      rfl
    have := List.all_eq_true.1 this _ h
    simp only [List.any_eq_true, Bool.and_eq_true, beq_iff_eq] at this
    obtain ⟨y, hy, h1, q, hq, h2⟩ := this
    refine ⟨y.2, q.2, ?_, ?_⟩
    · rw [← h1]; exact hy
    · rw [← h2]; exact hq
  obtain ⟨l, u, hl, hu⟩ := hex
  obtain ⟨before, after, hsplit⟩ := List.append_of_mem
    (List.mem_map_of_mem (f := fun x : String × Layout => (RegOp.component x.1 (canonical x) : RegOp Name String Unset)) hl)
  have hops : builtinOps ++ app = before ++ RegOp.component t (canonical (t, l)) :: (after ++
      ([76, 78, 79, 80, 81, 82, 77].map fun i => .unset (.id i) .inherit) ++ app) := by
    simp only [builtinOps]
    rw [hsplit]
    simp
  rw [hops] at hr
  obtain ⟨start, h1, h2⟩ := C39_ranges .none before _ t _ r hr
  have hmem : (t, p) ∈ canonical (t, l) := List.mem_map.2 ⟨(p, u), hu, rfl⟩
  obtain ⟨j, hj⟩ := List.mem_iff_getElem?.1 hmem
  have h3 := h2 j _ hj
  obtain ⟨_, _, h4, _⟩ := C39_ids .none _ r hr
  refine ⟨start + j, start, _, l, u, ?_, (h4 _ _).1 h3, hl, hu, h1, by omega, ?_⟩
  · simp only [Css.resolveProperty, hcss, Option.bind_some]
    exact h3
  · have := (List.getElem?_eq_some_iff.1 hj).1
    omega

/-- Two built-in css names never lead to the same property. -/
theorem C87_distinct (app : List (RegOp Name String Unset)) (appCss : List (CssOp String Name))
    (r : Reg Name String Unset) (c : Css String Name) (hr : regHistory .none (builtinOps ++ app) = some r)
    (hc : (buildCss.bind fun c => appCss.foldlM CssOp.run c) = some c)
    {a b : String × String × Path} (ha : a ∈ cssNames) (hb : b ∈ cssNames)
    (h : c.resolveProperty r a.1 = c.resolveProperty r b.1) : a = b := by
  obtain ⟨i, _, _, _, _, h1, h2, _⟩ := C87_names app appCss r c hr hc ha
  obtain ⟨j, _, _, _, _, k1, k2, _⟩ := C87_names app appCss r c hr hc hb
  rw [h1, k1] at h
  cases h
  rw [h2] at k2
  have e : a.2 = b.2 := by simpa using k2
  have : (cssNames.map (·.2)).Nodup := by decide +kernel
  exact List.inj_on_of_nodup_map this ha hb e

/-- The properties of the four text components inherit when they are unset, and no other property does, built-in or
of the application, as long as the application does not say otherwise. -/
theorem C87_inherited (app : List (RegOp Name String Unset)) (happ : ∀ op ∈ app, ∀ p v, op ≠ .unset p v)
    (hown : ∀ op ∈ app, ∀ n ∈ op.props, n.1 ∉ inherited)
    (r : Reg Name String Unset) (hr : regHistory .none (builtinOps ++ app) = some r) (i : Nat) (t : String) (p : Path)
    (hi : r.props[i]? = some (t, p)) : r.unset[i]? = some (if t ∈ inherited then .inherit else .none) := by
  obtain ⟨h1, _, h3, _⟩ := C39_ids .none _ r hr
  have hu := C39_unset .none _ r hr (t, p) i ((h3 _ _).2 hi)
  rw [hu]
  have happ' : app.filterMap (RegOp.setsUnset (t, p) i) = [] := by
    rw [List.filterMap_eq_nil_iff]
    intro op hop
    cases op with
    | component t ns => rfl
    | properties ns => rfl
    | unset q v => exact absurd rfl (happ _ hop q v)
  have hsplit : (builtinOps ++ app).filterMap (RegOp.setsUnset (t, p) i) =
      ([76, 78, 79, 80, 81, 82, 77].map fun j => (RegOp.unset (.id j) .inherit : RegOp Name String Unset)).filterMap
        (RegOp.setsUnset (t, p) i) := by
    rw [List.filterMap_append, happ', List.append_nil, builtinOps, List.filterMap_append]
    have : (components.map (fun x => (RegOp.component x.1 (canonical x) : RegOp Name String Unset))).filterMap
        (RegOp.setsUnset (t, p) i) = [] := by
      rw [List.filterMap_eq_nil_iff]
      intro op hop
      obtain ⟨x, _, rfl⟩ := List.mem_map.1 hop
      rfl
    rw [this, List.nil_append]
  rw [hsplit]
  have hlast : (([76, 78, 79, 80, 81, 82, 77].map fun j =>
      (RegOp.unset (.id j) .inherit : RegOp Name String Unset)).filterMap (RegOp.setsUnset (t, p) i)).getLast?.getD .none =
      if i ∈ [76, 78, 79, 80, 81, 82, 77] then .inherit else .none := by
    by_cases h : i ∈ [76, 78, 79, 80, 81, 82, 77]
    · rw [if_pos h]
      simp only [List.mem_cons, List.not_mem_nil, or_false] at h
      rcases h with rfl | rfl | rfl | rfl | rfl | rfl | rfl <;> rfl
    · rw [if_neg h]
      have : ([76, 78, 79, 80, 81, 82, 77].map fun j =>
          (RegOp.unset (.id j) .inherit : RegOp Name String Unset)).filterMap (RegOp.setsUnset (t, p) i) = [] := by
        rw [List.filterMap_eq_nil_iff]
        intro op hop
        obtain ⟨j, hj, rfl⟩ := List.mem_map.1 hop
        have : j ≠ i := by rintro rfl; exact h hj
        simp [RegOp.setsUnset, this]
      rw [this]
      rfl
  rw [hlast]
  have hmem : i ∈ [76, 78, 79, 80, 81, 82, 77] ↔ t ∈ inherited := by
    rw [h1, List.flatMap_append] at hi
    by_cases hlt : i < 85
    · rw [List.getElem?_append_left (by exact hlt)] at hi
      have : ∀ i < 85, (builtinOps.flatMap RegOp.props)[i]?.any (fun n =>
          decide (i ∈ [76, 78, 79, 80, 81, 82, 77]) == decide (n.1 ∈ inherited)) = true := by
        decide +kernel
      have := this i hlt
      rw [hi, Option.any_some, beq_iff_eq] at this
      exact decide_eq_decide.1 this
    · have hno : i ∉ [76, 78, 79, 80, 81, 82, 77] := by
        simp only [List.mem_cons, List.not_mem_nil, or_false]
        omega
      rw [List.getElem?_append_right (by exact Nat.le_of_not_lt hlt)] at hi
      obtain ⟨op, hop, hn⟩ := List.mem_flatMap.1 (List.mem_of_getElem? hi)
      have := hown op hop _ hn
      exact iff_of_false hno this
  simp only [hmem]

/-! ## Declarations -/

/-- **Every built-in css name can be used in a rule**: a declaration of it is given to the parser for the type of its
field (every such type has one), and the value is for that field. -/
theorem C87_declaration (app : List (RegOp Name String Unset)) (appCss : List (CssOp String Name))
    (r : Reg Name String Unset) (c : Css String Name) (hr : regHistory .none (builtinOps ++ app) = some r)
    (hc : (buildCss.bind fun c => appCss.foldlM CssOp.run c) = some c) (typeOf : Nat → Nat)
    (hty : DeclaredTypes r typeOf) (shorthands : List String) {css t : String} {p : Path} (h : (css, t, p) ∈ cssNames)
    (hs : css ∉ shorthands) :
    ∃ i l u, target shorthands c r typeOf (parsers.map VT.ctorIdx) css = .property i u ∧ r.props[i]? = some (t, p) ∧
      (t, l) ∈ components ∧ (p, u) ∈ l.properties := by
  obtain ⟨i, _, _, l, u, h1, h2, h3, h4, _⟩ := C87_names app appCss r c hr hc h
  have hu := hty i t p l u h2 h3 h4
  refine ⟨i, l, u, ?_, h2, h3, h4⟩
  have : u ∈ parsers.map VT.ctorIdx := by
    have hall : ∀ x ∈ cssNames, ∀ y ∈ components, y.1 = x.2.1 → ∀ q ∈ y.2.properties, q.1 = x.2.2 →
        q.2 ∈ parsers.map VT.ctorIdx := by decide +kernel
    exact hall _ h _ h3 rfl _ h4 rfl
  simp [target, hs, h1, hu, this]

/-- A name that is neither a shorthand nor a css name that somebody registered is reported as not recognized. -/
theorem C87_unknown (appCss : List (CssOp String Name)) (r : Reg Name String Unset) (c : Css String Name)
    (hc : (buildCss.bind fun c => appCss.foldlM CssOp.run c) = some c) (typeOf : Nat → Nat) (types : List Nat)
    (shorthands : List String) (name : String) (hs : name ∉ shorthands) (hn : name ∉ cssNames.map (·.1))
    (ha : ∀ p, CssOp.property name p ∉ appCss) : target shorthands c r typeOf types name = .notRecognized := by
  obtain ⟨c0, h0, _⟩ := css_build
  have h1 : c0.properties name = none := by
    have hb : cssHistory (cssNames.map fun x => (CssOp.property x.1 (.name x.2) : CssOp String Name)) = some c0 := by
      rw [← h0]
      simp only [cssHistory, buildCss, List.foldlM_map]
      rfl
    have := (cssHistory_aux _ _ _ hb).1 name
    rw [← Option.not_isSome_iff_eq_none, this]
    rintro (h | ⟨p, h⟩)
    · cases h
    · obtain ⟨x, hx, he⟩ := List.mem_map.1 h
      cases he
      exact hn (List.mem_map_of_mem hx)
  rw [h0] at hc
  have h2 : c.properties name = none := by
    have := (cssHistory_aux appCss c0 c hc).1 name
    rw [← Option.not_isSome_iff_eq_none, this]
    rintro (h | ⟨p, h⟩)
    · rw [h1] at h; cases h
    · exact ha p h
  simp [target, hs, Css.resolveProperty, h2]

/-! ## Shorthands -/

variable {X : Type}

/-- The default shorthands with their longhands. -/
private theorem default_subs (env : Flair.Shorthand.Env X) {s : Flair.Shorthand.ShorthandProperty X}
    (hs : s ∈ Flair.Shorthand.defaults env) :
    (∀ n ∈ s.subs, n ∈ cssNames.map (·.1)) ∧ s.name ∉ cssNames.map (·.1) := by
  have : ∀ x ∈ (Flair.Shorthand.defaults env).map (fun s => (s.name, s.subs)),
      (∀ n ∈ x.2, n ∈ cssNames.map (·.1)) ∧ x.1 ∉ cssNames.map (·.1) := by
    simp only [Flair.Shorthand.defaults, List.map_cons, List.map_nil]
    decide +kernel
  exact this (s.name, s.subs) (List.mem_map_of_mem (f := fun s => (s.name, s.subs)) hs)

/-- A declaration of a built-in shorthand is given to that shorthand, and the names of properties and shorthands are
different: with the built-in shorthands, a built-in css name is still read as its property (`C87_declaration`). -/
theorem C87_shorthand_declaration (env : Flair.Shorthand.Env X) {s : Flair.Shorthand.ShorthandProperty X}
    (hs : s ∈ Flair.Shorthand.defaults env) (c : Css String Name) (r : Reg Name String Unset) (typeOf : Nat → Nat)
    (types : List Nat) :
    target ((Flair.Shorthand.defaults env).map (·.name)) c r typeOf types s.name = .shorthand s.name ∧
      ∀ x ∈ cssNames, x.1 ∉ (Flair.Shorthand.defaults env).map (·.name) := by
  refine ⟨?_, fun x hx h => ?_⟩
  · have : s.name ∈ (Flair.Shorthand.defaults env).map (·.name) := List.mem_map_of_mem hs
    simp only [target, if_pos this]
  · obtain ⟨s', hs', he⟩ := List.mem_map.1 h
    exact (default_subs env hs').2 (he ▸ List.mem_map_of_mem hx)

/-- **Whatever the text of a built-in shorthand is**, each longhand that it sets is resolved to a property (the reader
of declarations would panic otherwise). -/
theorem C87_shorthand_resolves (env : Flair.Shorthand.Env X) {s : Flair.Shorthand.ShorthandProperty X}
    (hs : s ∈ Flair.Shorthand.defaults env) {ts : List Flair.Shorthand.Tok} {a : Flair.Shorthand.Assign X}
    (h : (∃ imp, s.declare ts = .ok (a, imp)) ∨ s.viaVar ts = .ok a)
    (app : List (RegOp Name String Unset)) (appCss : List (CssOp String Name))
    (r : Reg Name String Unset) (c : Css String Name) (hr : regHistory .none (builtinOps ++ app) = some r)
    (hc : (buildCss.bind fun c => appCss.foldlM CssOp.run c) = some c) :
    ∀ d ∈ a, ∃ i, c.resolveProperty r d.1 = some i := by
  intro d hd
  have hm := (C63_only_its_longhands env hs h).2 d hd
  obtain ⟨x, hx, he⟩ := List.mem_map.1 ((default_subs env hs).1 _ hm)
  obtain ⟨i, _, _, _, _, h1, _⟩ := C87_names app appCss r c hr hc (css := x.1) (t := x.2.1) (p := x.2.2) hx
  exact ⟨i, by rw [← he]; exact h1⟩

/-- The shorthands are registered without a panic when the application has not taken one of their names, in whatever
order they come; afterwards each of them resolves to the properties of its longhands. -/
theorem C87_finish (env : Flair.Shorthand.Env X) (order : List (String × List String))
    (ho : order.Perm ((Flair.Shorthand.defaults env).map fun s => (s.name, s.subs)))
    (app : List (RegOp Name String Unset)) (appCss : List (CssOp String Name))
    (r : Reg Name String Unset) (c : Css String Name) (hr : regHistory .none (builtinOps ++ app) = some r)
    (hc : (buildCss.bind fun c => appCss.foldlM CssOp.run c) = some c)
    (hfree : ∀ s ∈ Flair.Shorthand.defaults env, ∀ op ∈ appCss, op.name ≠ s.name) :
    ∃ c', finish c order = some c' ∧
      (∀ n, c'.resolveProperty r n = c.resolveProperty r n) ∧
      ∀ s ∈ Flair.Shorthand.defaults env, ∃ is, c'.resolve r s.name = some (.shorthand is) ∧
        List.Forall₂ (fun n i => c.resolveProperty r n = some i) s.subs is := by
  obtain ⟨c0, h0, hnames⟩ := css_build
  have hc' := hc
  rw [h0] at hc'
  have hc0 : ∀ s ∈ Flair.Shorthand.defaults env, c0.properties s.name = none ∧ c0.shorthands s.name = none := by
    intro s hs
    have hb : cssHistory (cssNames.map fun x => (CssOp.property x.1 (.name x.2) : CssOp String Name)) = some c0 := by
      rw [← h0]
      simp only [cssHistory, buildCss, List.foldlM_map]
      rfl
    have := cssHistory_aux _ _ _ hb
    rw [← Option.not_isSome_iff_eq_none, ← Option.not_isSome_iff_eq_none, this.1, this.2]
    refine ⟨?_, ?_⟩
    · rintro (h | ⟨p, h⟩)
      · cases h
      · obtain ⟨x, hx, he⟩ := List.mem_map.1 h
        have : x.1 = s.name := by injection he
        exact (default_subs env hs).2 (this ▸ List.mem_map_of_mem hx)
    · rintro (h | ⟨p, h⟩)
      · cases h
      · obtain ⟨x, hx, he⟩ := List.mem_map.1 h
        cases he
  have hcs : ∀ s ∈ Flair.Shorthand.defaults env, c.properties s.name = none ∧ c.shorthands s.name = none := by
    intro s hs
    have := cssHistory_aux appCss c0 c hc'
    rw [← Option.not_isSome_iff_eq_none, ← Option.not_isSome_iff_eq_none, this.1, this.2]
    have h1 := hc0 s hs
    refine ⟨?_, ?_⟩
    · rintro (h | ⟨p, h⟩)
      · rw [h1.1] at h; cases h
      · exact hfree s hs _ h rfl
    · rintro (h | ⟨p, h⟩)
      · rw [h1.2] at h; cases h
      · exact hfree s hs _ h rfl
  have hnd : (order.map (·.1)).Nodup := by
    rw [(ho.map (·.1)).nodup_iff, List.map_map]
    have : (Flair.Shorthand.defaults env).map ((fun x : String × List String => x.1) ∘ fun s => (s.name, s.subs)) =
      ["overflow", "outline", "border", "border-top", "border-right", "border-bottom", "border-left", "border-color",
        "border-radius", "margin", "padding", "border-width", "flex", "place-items", "background-image", "background",
        "gap", "grid-template", "grid", "transform"] := rfl
    rw [this]
    decide
  have hprops : ∀ n ∈ cssNames.map (·.1), ∃ x, c.properties n = some x := by
    intro n hn
    obtain ⟨x, hx, rfl⟩ := List.mem_map.1 hn
    exact ⟨_, css_mono appCss c0 c hc' _ _ (hnames x hx)⟩
  -- the loop
  have loop : ∀ (os : List (String × List String)) (d : Css String Name), (os.map (·.1)).Nodup →
      (∀ o ∈ os, (∀ n ∈ o.2, n ∈ cssNames.map (·.1)) ∧ c.properties o.1 = none ∧ d.shorthands o.1 = none) →
      (∀ n, d.properties n = c.properties n) →
      ∃ c', finish d os = some c' ∧ (∀ n, c'.properties n = c.properties n) ∧
        (∀ o ∈ os, ∃ ps, o.2.mapM c.properties = some ps ∧ c'.shorthands o.1 = some ps) ∧
        ∀ n ∉ os.map (·.1), c'.shorthands n = d.shorthands n := by
    intro os
    induction os with
    | nil => intro d _ _ hd; exact ⟨d, rfl, hd, by simp, by simp⟩
    | cons o os ih =>
      intro d hn ho hd
      simp only [List.map_cons, List.nodup_cons] at hn
      obtain ⟨o1, o2, o3⟩ := ho o (by simp)
      have hm : ∃ ps, o.2.mapM c.properties = some ps := by
        have : ∀ ns : List String, (∀ n ∈ ns, n ∈ cssNames.map (·.1)) → ∃ ps, ns.mapM c.properties = some ps := by
          intro ns
          induction ns with
          | nil => intro _; exact ⟨[], rfl⟩
          | cons n ns ih =>
            intro h
            obtain ⟨x, hx⟩ := hprops n (h n (by simp))
            obtain ⟨ps, hps⟩ := ih fun m hm => h m (List.mem_cons_of_mem _ hm)
            exact ⟨x :: ps, by simp [List.mapM_cons, hx, hps]⟩
        exact this o.2 o1
      obtain ⟨ps, hps⟩ := hm
      have hd' : d.properties = c.properties := funext hd
      let d' : Css String Name := { d with shorthands := fun m => if m = o.1 then some ps else d.shorthands m }
      have hstep : ((o.2.mapM d.properties).bind (d.registerShorthand o.1)) = some d' := by
        rw [hd', hps, Option.bind_some]
        simp [Css.registerShorthand, o3, hd, o2, d']
      obtain ⟨c', k1, k2, k3, k4⟩ := ih d' hn.2 (fun x hx => by
        obtain ⟨x1, x2, x3⟩ := ho x (List.mem_cons_of_mem _ hx)
        refine ⟨x1, x2, ?_⟩
        have : x.1 ≠ o.1 := by
          intro he
          exact hn.1 (he ▸ List.mem_map_of_mem hx)
        simp [d', this, x3]) hd
      refine ⟨c', ?_, k2, ?_, ?_⟩
      · simp only [finish, List.foldlM_cons]
        rw [hstep]
        exact k1
      · intro x hx
        rcases List.mem_cons.1 hx with rfl | hx
        · exact ⟨ps, hps, by rw [k4 _ hn.1]; simp [d']⟩
        · exact k3 x hx
      · intro n hn'
        simp only [List.map_cons, List.mem_cons, not_or] at hn'
        rw [k4 n hn'.2]
        simp [d', hn'.1]
  have hperm : ∀ o ∈ order, ∃ s ∈ Flair.Shorthand.defaults env, o = (s.name, s.subs) := by
    intro o h
    obtain ⟨s, hs, he⟩ := List.mem_map.1 (ho.mem_iff.1 h)
    exact ⟨s, hs, he.symm⟩
  obtain ⟨c', k1, k2, k3, _⟩ := loop order c hnd (fun o h => by
    obtain ⟨s, hs, rfl⟩ := hperm o h
    exact ⟨(default_subs env hs).1, hcs s hs⟩) (fun _ => rfl)
  refine ⟨c', k1, fun n => by simp [Css.resolveProperty, k2], fun s hs => ?_⟩
  obtain ⟨ps, h1, h2⟩ := k3 (s.name, s.subs) (ho.mem_iff.2 (List.mem_map_of_mem (f := fun s => (s.name, s.subs)) hs))
  have : ∀ (ns : List String) (ps : List (Ref Name)), ns.mapM c.properties = some ps →
      (∀ n ∈ ns, n ∈ cssNames.map (·.1)) →
      ∃ is, ps.mapM r.resolve = some is ∧ List.Forall₂ (fun n i => c.resolveProperty r n = some i) ns is := by
    intro ns
    induction ns with
    | nil =>
      intro ps h _
      have : ps = [] := by simpa [List.mapM_nil] using h.symm
      subst this
      exact ⟨[], rfl, .nil⟩
    | cons n ns ih =>
      intro ps h hin
      rw [List.mapM_cons] at h
      obtain ⟨q, hq, h⟩ := Option.bind_eq_some_iff.1 h
      obtain ⟨qs, hqs, h⟩ := Option.bind_eq_some_iff.1 h
      have e : ps = q :: qs := by simpa using h.symm
      subst e
      obtain ⟨is, hi1, hi2⟩ := ih qs hqs fun m hm => hin m (List.mem_cons_of_mem _ hm)
      obtain ⟨x, hx, he⟩ := List.mem_map.1 (hin n (by simp))
      obtain ⟨i, _, _, _, _, hi, _⟩ := C87_names app appCss r c hr hc (css := x.1) (t := x.2.1) (p := x.2.2) hx
      rw [he] at hi
      have hqi : r.resolve q = some i := by
        have := hi
        simp only [Css.resolveProperty, hq, Option.bind_some] at this
        exact this
      exact ⟨i :: is, by simp [List.mapM_cons, hqi, hi1], .cons hi hi2⟩
  obtain ⟨is, i1, i2⟩ := this s.subs ps h1 (default_subs env hs).1
  exact ⟨is, by simp [Css.resolve, Css.resolveShorthand, h2, i1], i2⟩

/-- The properties of each built-in component are different places of it. -/
theorem C87_apart : ∀ x ∈ components, x.2.properties.Pairwise fun a b => Apart a.1 b.1 := by
  unfold Apart
  decide +kernel

/-- An application with a component of its own and a css name for it. -/
example : ∃ r c, regHistory .none (builtinOps ++ [.component "Mine" [("Mine", ["x"])]]) = some r ∧
    (buildCss.bind fun c => [CssOp.property "my-x" (.name ("Mine", ["x"]))].foldlM CssOp.run c) = some c ∧
    c.resolveProperty r "my-x" = some 85 ∧ c.resolveProperty r "margin-left" = some 24 := by
  refine ⟨_, _, rfl, rfl, rfl, rfl⟩

/-- `DeclaredTypes` can be met: the types are read off the declarations. -/
example : ∃ typeOf : Nat → Nat, ∀ r, regHistory .none builtinOps = some r → DeclaredTypes r typeOf := by
  refine ⟨fun i => ((components.flatMap fun x => x.2.properties.map (·.2))[i]?).getD 0, fun r hr => ?_⟩
  intro i t p l u hi hl hp
  rw [(C39_ids .none _ r hr).1] at hi
  have key : ∀ i < 85, ∀ x ∈ components, ∀ q ∈ x.2.properties, (builtinOps.flatMap RegOp.props)[i]? = some (x.1, q.1) →
      ((components.flatMap fun x => x.2.properties.map (·.2))[i]?).getD 0 = q.2 := by decide +kernel
  have hlt : i < (builtinOps.flatMap RegOp.props).length := (List.getElem?_eq_some_iff.1 hi).1
  exact key i hlt (t, l) hl (p, u) hp hi

end Flair.Props
