import Verif.Props.Layers
import Verif.Props.Vars
import Verif.Props.Tree
import Verif.Props.Values
import Verif.Props.Inherit
import Verif.Props.Sheet
import Verif.Props.Import
import Verif.Props.Loader
import Verif.Props.Prepare
import Verif.Props.StyleData
import Verif.Props.Transition
import Verif.Props.Animation
import Verif.Props.NodeProps
import Verif.Props.Keyframes
import Verif.Props.AnimProps
import Verif.Props.AnimShorthand
import Verif.Props.Registry
import Verif.Props.Components
import Verif.Props.Calc
import Verif.Props.Shorthand
import Verif.Props.AnimCascade
import Verif.Props.Invalidation
import Verif.Props.InlineStyle
import Verif.Props.CssToken
import Verif.Props.Easing
import Verif.Props.Interpolate
import Verif.Spec.Shorthand2
import Verif.Props.Shorthand2
import Verif.Model.Longhand
import Verif.Spec.Longhand
import Verif.Spec.Enum
import Verif.Proofs.Parse
import Verif.Props.Longhand
import Verif.Props.GridTracks
import Verif.Props.Enum
import Verif.Model.Gradient
import Verif.Spec.Gradient
import Verif.Proofs.Gradient
import Verif.Props.Gradient
import Verif.Model.MediaChange
import Verif.Spec.MediaChange
import Verif.Props.MediaChange
import Verif.Model.MediaQuery
import Verif.Spec.MediaQuery
import Verif.Props.MediaQuery
import Verif.Model.VarsChange
import Verif.Spec.VarsChange
import Verif.Props.VarsChange
import Verif.Model.Placeholder
import Verif.Spec.Placeholder
import Verif.Proofs.Placeholder
import Verif.Proofs.PlaceholderRun
import Verif.Props.Placeholder
import Verif.Model.File
import Verif.Spec.File
import Verif.Proofs.File
import Verif.Proofs.File2
import Verif.Props.File
import Verif.Model.Structure
import Verif.Spec.Structure
import Verif.Proofs.Structure
import Verif.Proofs.Structure2
import Verif.Props.Structure
import Verif.Model.Reflect
import Verif.Spec.Reflect
import Verif.Proofs.Reflect
import Verif.Props.Reflect
import Verif.Model.Defaults
import Verif.Spec.Defaults
import Verif.Props.Defaults
import Verif.Model.AnimParse
import Verif.Spec.AnimParse
import Verif.Proofs.AnimParse
import Verif.Proofs.AnimParse2
import Verif.Props.AnimParse
import Verif.Model.VarDecl
import Verif.Spec.VarDecl
import Verif.Proofs.VarDecl
import Verif.Proofs.VarStrict
import Verif.Proofs.VarStrict2
import Verif.Props.VarDecl
import Verif.Spec.LayerBlock
import Verif.Proofs.LayerBlock
import Verif.Props.LayerBlock
import Verif.Props.Crash
import Verif.Model.Selector
import Verif.Spec.Selector
import Verif.Proofs.Selector
import Verif.Props.Selector
import Verif.Model.Pointer
import Verif.Spec.Pointer
import Verif.Props.Pointer
import Verif.Model.Color
import Verif.Spec.Color
import Verif.Proofs.Color
import Verif.Props.Color
import Verif.Model.Nesting
import Verif.Model.Page
import Verif.Spec.Nesting
import Verif.Spec.Hierarchy
import Verif.Spec.Page
import Verif.Proofs.Nesting
import Verif.Proofs.Nesting2
import Verif.Props.Nesting
import Verif.Props.Page
import Verif.Model.Matcher
import Verif.Model.Live
import Verif.Spec.Watch
import Verif.Spec.Live
import Verif.Proofs.Matcher
import Verif.Proofs.Live
import Verif.Props.Live
import Verif.Model.Report
import Verif.Spec.Report
import Verif.Proofs.Report
import Verif.Props.Report
import Verif.Model.Bezier
import Verif.Spec.Bezier
import Verif.Props.Bezier
import Verif.Model.Pseudo
import Verif.Spec.Pseudo
import Verif.Props.Pseudo
import Verif.Model.Redraw
import Verif.Spec.Redraw
import Verif.Props.Redraw
import Verif.Model.SheetTree
import Verif.Spec.SheetTree
import Verif.Proofs.SheetTree
import Verif.Props.SheetTree
import Verif.Spec.FileTree
import Verif.Proofs.FileTree
import Verif.Proofs.FileTree2
import Verif.Props.FileTree
import Verif.Model.ReflectValue
import Verif.Spec.ReflectValue
import Verif.Props.ReflectValue
import Verif.Model.Debug
import Verif.Spec.Debug
import Verif.Props.Debug
import Verif.Model.ToCss
import Verif.Spec.ToCss
import Verif.Props.ToCss
import Verif.Model.Schedule
import Verif.Spec.Schedule
import Verif.Props.Schedule
import Verif.Model.Sharing
import Verif.Spec.Sharing
import Verif.Props.Sharing
import Verif.Props.InlineSheet
