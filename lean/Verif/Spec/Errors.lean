import Verif.Model.Error
/-
The errors of rendering and of conversion, spelled out (C16, C23, C25, C31, C33, C35).
-/
namespace Upon.Spec

/-- A failure of the template at a place in its source: kind render, the message, and the place shown. -/
def fault {α : Type} (env : Env) (msg : String) (src : Str) (sp : Span) : Res α :=
  match Pretty.build env src sp with
  | some p => .err ⟨.render, none, some msg, some p⟩
  | none => .crash

/-- A failure reported by a filter: kind filter, its message, and the place of its name. -/
def filterFault {α : Type} (env : Env) (msg : String) (src : Str) (sp : Span) : Res α :=
  match Pretty.build env src sp with
  | some p => .err ⟨.filter, none, some msg, some p⟩
  | none => .crash

/-- A failure reported by a formatter: kind format, its message if it gives one, and the place of what is written. -/
def formatFault {α : Type} (env : Env) (msg : Option String) (src : Str) (sp : Span) : Res α :=
  match Pretty.build env src sp with
  | some p => .err ⟨.format, none, msg, some p⟩
  | none => .crash

/-- Templates included too deeply. -/
def depthErr (limit : Nat) : Err :=
  ⟨.render, none, some ("reached maximum include depth (" ++ toString limit ++ ")"), none⟩

/-- A filter that failed, before its place is known. -/
def filterErr (msg : String) : Err := ⟨.filter, none, some msg, none⟩

/-- A write that failed. -/
def formatErr : Err := ⟨.format, none, none, none⟩

/-- A failure of the `std::io::Write` that is written to. -/
def ioErr (e : Nat) : Err := ⟨.io e, none, none, none⟩

/-- A value that cannot be made from the data. -/
def serializeErr (msg : String) : Err := ⟨.serialize, none, some msg, none⟩

end Upon.Spec

namespace Upon
open Spec

theorem errRender_eq {α : Type} (env : Env) (msg : String) (src : Str) (sp : Span) :
    (errRender env msg src sp : Res α) = fault env msg src sp := rfl

theorem throwFormat_eq {α : Type} (env : Env) (msg : Option String) (src : Str) (sp : Span) :
    (throwAt env .format msg src sp : Res α) = formatFault env msg src sp := rfl

theorem maxIncludeDepth_eq (d : Nat) : Err.maxIncludeDepth d = depthErr d := by
  simp only [Err.maxIncludeDepth, depthErr]
  rfl

theorem filter_eq (m : String) : Err.filter m = filterErr m := rfl

theorem ofFmt_eq : Err.ofFmt = formatErr := rfl

theorem ofIo_eq (e : Nat) : Err.ofIo e = ioErr e := rfl

theorem custom_eq (m : String) : Err.custom m = serializeErr m := rfl

end Upon
