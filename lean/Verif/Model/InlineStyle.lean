import Verif.Tactics
/-!
# Model of inline styles

`bevy_flair_css_parser/src/inline_styles.rs`: the `InlineStyle` component and the system `parse_inline_style`, with the
part of `internal_loader.rs` (`process_ruleset_property`) and `error.rs` (`ErrorReportGenerator`) it goes through.

Texts are lists of characters.  `ws` is the predicate `char::is_whitespace` (a parameter: all that matters is that `:`
and `;` are not white space).  The `linked-hash-map` crate is third-party: `insert` of a present key replaces the value
and moves the entry to the back, `remove` takes the entry out, iteration goes from the oldest to the newest entry.
-/
namespace Flair.InlineStyle

/-- A `str` -/
abbrev Text := List Char

/-- `InlineStyle::properties` (inline_styles.rs:23-26): entries from front to back -/
abbrev Style := List (Text × Text)

/-- `InlineStyle::get` (49-51) -/
def get (s : Style) (k : Text) : Option Text := (s.find? fun p => p.1 == k).map (·.2)

/-- `InlineStyle::set` (64-66), `LinkedHashMap::insert` -/
def set (s : Style) (k v : Text) : Style := (s.filter fun p => !(p.1 == k)) ++ [(k, v)]

/-- `InlineStyle::remove` (77-79) -/
def remove (s : Style) (k : Text) : Style := s.filter fun p => !(p.1 == k)

/-- `FromIterator` (83-96): inserts in order -/
def fromIter (l : List (Text × Text)) : Style := l.foldl (fun s p => set s p.1 p.2) []

/-- `str::trim_start` -/
def trimStart (ws : Char → Bool) : Text → Text
  | [] => []
  | c :: cs => if ws c then trimStart ws cs else c :: cs

/-- `str::trim` -/
def trim (ws : Char → Bool) (s : Text) : Text := (trimStart ws (trimStart ws s).reverse).reverse

/-- `str::split(c)` -/
def splitOn (sep : Char) : Text → List Text
  | [] => [[]]
  | c :: cs =>
    if c = sep then [] :: splitOn sep cs
    else
      match splitOn sep cs with
      | [] => [[c]]
      | p :: ps => (c :: p) :: ps

/-- `str::split_once(c)` -/
def splitOnce (sep : Char) : Text → Option (Text × Text)
  | [] => none
  | c :: cs => if c = sep then some ([], cs) else (splitOnce sep cs).map fun p => (c :: p.1, p.2)

/-- The body of the loop of `FromStr::from_str` (99-115), for one piece -/
def addPiece (ws : Char → Bool) (s : Style) (piece : Text) : Style :=
  match trim ws piece with
  | [] => s
  | c :: cs =>
    match splitOnce ':' (c :: cs) with
    | none => set s (c :: cs) []
    | some (n, v) => set s (trim ws n) (trim ws v)

/-- `FromStr::from_str` (99-115); also `InlineStyle::new` (36-38) -/
def fromStr (ws : Char → Bool) (s : Text) : Style := (splitOn ';' s).foldl (addPiece ws) []

/-- `writeln!(&mut css, "{css_name}: {value};")` (141-143), over all properties -/
def cssText (s : Style) : Text := s.flatMap fun p => p.1 ++ [':', ' '] ++ p.2 ++ [';', '\n']

/-- What `parse_inline_properties` (parser.rs:684-708) yields, one item per declaration: something to add to the ruleset
(a property, several, a dynamic one, a variable, an animation or transition property), with the importance it was written
with, or an error.  Nested rulesets are never produced (`parse_nested: false`). -/
inductive Parsed (I : Type) where
  | item (i : I) (important : Bool)
  | error
deriving DecidableEq

/-- `process_ruleset_property` (internal_loader.rs:43-85): the ruleset under construction and whether the report has any
message.  `report_important_level` (29-41) adds an advice for `!important`. -/
def process {I : Type} (acc : List I × Bool) : Parsed I → List I × Bool
  | .item i imp => (acc.1 ++ [i], acc.2 || imp)
  | .error => (acc.1, true)

/-- The loop over the parsed properties (150-152); `is_empty` is the negation of the second component -/
def processAll {I : Type} (l : List (Parsed I)) : List I × Bool := l.foldl process ([], false)

/-- The components the system reads and writes.  `raw` is the `RawInlineStyle` component: the ruleset built from the added
items, in order. -/
structure World (E I : Type) where
  inline : E → Option Style
  /-- the `InlineStyle` changed since the system last ran -/
  changed : E → Bool
  raw : E → Option (List I)

section
variable {E I : Type} [DecidableEq E]

/-- Insert a component -/
def World.insertRaw (w : World E I) (e : E) (r : List I) : World E I :=
  { w with raw := fun x => if x = e then some r else w.raw x }

/-- The loop of `parse_inline_style` (136-167) over the entities of the query; a report ends the *system* (154-160). -/
def parseLoop (parse : Text → List (Parsed I)) : List E → World E I → World E I
  | [], w => w
  | e :: es, w =>
    match w.inline e with
    | none => parseLoop parse es w
    | some s =>
      if (processAll (parse (cssText s))).2 then w
      else parseLoop parse es (w.insertRaw e (processAll (parse (cssText s))).1)

/-- `parse_inline_style` (118-167).  `order`: the entities matched by the query, in the order it yields them. Running the
system consumes all change ticks. -/
def parseInline (parse : Text → List (Parsed I)) (order : List E) (w : World E I) : World E I :=
  { parseLoop parse order w with changed := fun _ => false }

/-- What happens to the components between two runs of the system, and the runs -/
inductive Event (E : Type) where
  /-- the component is inserted or mutated -/
  | write (e : E) (s : Style)
  /-- the component is removed -/
  | remove (e : E)
  /-- the system runs; the query yields the entities in this order -/
  | run (order : List E)

/-- One event.  No hook or observer is attached to `InlineStyle`, and nothing ever removes a `RawInlineStyle`. -/
def World.event (parse : Text → List (Parsed I)) (w : World E I) : Event E → World E I
  | .write e s => { w with inline := fun x => if x = e then some s else w.inline x,
                           changed := fun x => if x = e then true else w.changed x }
  | .remove e => { w with inline := fun x => if x = e then none else w.inline x,
                          changed := fun x => if x = e then false else w.changed x }
  | .run order => parseInline parse order w

/-- The orders the query of `parse_inline_style` can yield: every entity with a changed `InlineStyle`, once (121) -/
def World.Query (w : World E I) (order : List E) : Prop :=
  order.Nodup ∧ ∀ e, e ∈ order ↔ (w.inline e).isSome ∧ w.changed e = true

end
end Flair.InlineStyle
