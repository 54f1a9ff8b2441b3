import Verif.Model.NodeProps
/-!
# Redraw requests

`crates/bevy_flair_style/src/systems.rs` (1114-1124).  In an application that only runs when there is something to do,
a redraw request is what makes the next frame happen.
-/
namespace Flair.Redraw
open Flair.NodeProps
variable {V : Type} {n : Nat}

/-- `emit_redraw_event` (systems.rs:1114-1124), the last system of the frame (lib.rs:361-373): is `RequestRedraw` written?
The argument is all the nodes, at that time. -/
def emitRedraw (nodes : List (NP n V)) : Bool := nodes.any fun s => decide (hasTickable s)

end Flair.Redraw
