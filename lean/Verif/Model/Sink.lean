import Verif.Model.Calendar

/-!
Writing into a caller's writer. `fmt_write` and the `Display` implementations write piece by piece into any `fmt::Write`,
whose `write_str` may refuse a piece with `fmt::Error`; every such error is passed on with `?`.

The definitions follow the same lines of the source as the `fmtWrite` functions, which give the text that is written when
nothing is refused. Simplification: how `write!` divides its output into calls of `write_str` is the standard library's
business. Here it is one call per literal part and one per argument, and no theorem depends on it.
-/

namespace Ical

/-- A writer with states `σ`: `write_str` changes the state and accepts (`true`) or refuses (`false`) the piece. -/
structure Sink (σ : Type) where
  writeStr : σ → Str → σ × Bool

/-- What writing ends with: `Ok(())`, `Err(fmt::Error)`, or a crash of the folding. -/
inductive Outcome
  | ok | refused | crashed (e : Crash)
  deriving DecidableEq, Repr

/-- A piece of code that writes. -/
abbrev Writing (σ : Type) := σ → σ × Outcome

/-- `Ok(())`. -/
def Writing.skip {σ : Type} : Writing σ := fun s => (s, .ok)

/-- The code does not come back. -/
def Writing.crash {σ : Type} (e : Crash) : Writing σ := fun s => (s, .crashed e)

/-- `a?; b`. -/
def Writing.andThen {σ : Type} (a b : Writing σ) : Writing σ := fun s =>
  match a s with
  | (s', .ok) => b s'
  | r => r

/-- `out.write_str(t)`. -/
def Sink.put {σ : Type} (k : Sink σ) (t : Str) : Writing σ := fun s =>
  match k.writeStr s t with
  | (s', true) => (s', .ok)
  | (s', false) => (s', .refused)

/-- `write_crlf!(out, "TAG:{}", t)`: /repo/src/lib.rs:25-35. -/
def Sink.line {σ : Type} (k : Sink σ) (tag t : Str) : Writing σ :=
  (k.put tag).andThen ((k.put t).andThen (k.put crlf))

section
variable {σ : Type} (k : Sink σ)

/-- `write_crlf!(out, "{}", fold_line(&line))`: the line is folded before anything is written. -/
def Sink.folded (line : Str) : Writing σ :=
  match foldLine line with
  | .error e => Writing.crash e
  | .ok s => (k.put s).andThen (k.put crlf)

/-- `Property::fmt_write`: /repo/src/properties.rs:178-193. -/
def Property.writeTo [Uni] (p : Property) (w : World) : Writing σ := k.folded (p.line w)

/-- Writing a list of properties one after the other. -/
def propsTo [Uni] : List Property → World → Writing σ
  | [], _ => .skip
  | p :: l, w => (p.writeTo k (w.sub 0)).andThen (propsTo l (w.sub 1))

mutual
/-- `Component::fmt_write`: /repo/src/components.rs:94-120. -/
def Other.writeTo [Uni] : Other → World → Writing σ
  | .mk name props multi comps, w =>
    -- 95
    (k.line c!"BEGIN:" name).andThen
    -- 97-100
    ((if props.containsKey c!"DTSTAMP" then .skip else k.line c!"DTSTAMP:" (fmtUtc (w.now []))).andThen
    -- 102-104
    ((propsTo k props.values (w.sub 0)).andThen
    -- 106-108
    ((if props.containsKey c!"UID" then .skip else k.line c!"UID:" (w.uuid [])).andThen
    -- 110-112
    ((propsTo k multi.values.flatten (w.sub 1)).andThen
    -- 114-116
    ((othersTo comps (w.sub 2)).andThen
    -- 118
    (k.line c!"END:" name))))))

/-- Writing the sub-components one after the other: /repo/src/components.rs:114-116. -/
def othersTo [Uni] : List Other → World → Writing σ
  | [], _ => .skip
  | o :: l, w => (o.writeTo (w.sub 0)).andThen (othersTo l (w.sub 1))
end

/-- `CalendarComponent::fmt_write` and `Component::fmt_write` of every kind of component:
/repo/src/calendar/calendar_component.rs:60-67. -/
def CalComp.writeTo [Uni] (c : CalComp) (w : World) : Writing σ :=
  match c with
  | .todo t => (Component.toOther t).writeTo k w
  | .event e => (Component.toOther e).writeTo k w
  | .venue v => (Component.toOther v).writeTo k w
  | .other o => (Component.toOther o).writeTo k w

/-- Writing the components of a calendar: /repo/src/calendar.rs:229-231. -/
def compsTo [Uni] : List CalComp → World → Writing σ
  | [], _ => .skip
  | c :: l, w => (c.writeTo k (w.sub 0)).andThen (compsTo l (w.sub 1))

/-- `Calendar::fmt_write`, `Display`: /repo/src/calendar.rs:223-247. -/
def Calendar.writeTo [Uni] (c : Calendar) (w : World) : Writing σ :=
  (k.put (c!"BEGIN:VCALENDAR" ++ crlf)).andThen
  ((propsTo k c.props (w.sub 0)).andThen
  ((compsTo k c.comps (w.sub 1)).andThen
  (k.put (c!"END:VCALENDAR" ++ crlf))))

/-- `parser::Property::fmt_write`, `Display`: /repo/src/parser/properties.rs:65-91. -/
def PProp.writeTo (p : PProp) : Writing σ := k.folded p.line

/-- Writing a list of parsed properties: /repo/src/parser/components.rs:90-92. -/
def ppropsTo : List PProp → Writing σ
  | [] => .skip
  | p :: l => (p.writeTo k).andThen (ppropsTo l)

/-- The lines added when the component's name is `calendar` in any letter case:
/repo/src/parser/components.rs:72-89. -/
def stampTo (name : Str) (props : List PProp) (w : World) : Writing σ :=
  if name.map lowerAscii = c!"calendar" then
    (if props.any (fun p => p.name == c!"DTSTAMP") then .skip
     else k.line c!"DTSTAMP:" (fmtUtc (w.now []))).andThen
    (if props.any (fun p => p.name == c!"UID") then .skip
     else k.line c!"UID:" (w.uuid []))
  else .skip

mutual
/-- `LikeComponent::fmt_write`: /repo/src/parser/components.rs:69-100. -/
def PComp.writeTo : PComp → World → Writing σ
  | .mk name props comps, w =>
    (k.line c!"BEGIN:" name).andThen
    ((stampTo k name props w).andThen
    ((ppropsTo k props).andThen
    ((pcompsTo comps (w.sub 0)).andThen
    (k.line c!"END:" name))))

/-- Writing the sub-components: /repo/src/parser/components.rs:94-96. -/
def pcompsTo : List PComp → World → Writing σ
  | [], _ => .skip
  | c :: l, w => (c.writeTo (w.sub 0)).andThen (pcompsTo l (w.sub 1))
end

/-- `Display for parser::Calendar`: /repo/src/parser/calendar.rs:22-41. -/
def PCal.writeTo (c : PCal) (w : World) : Writing σ :=
  (PComp.mk c!"VCALENDAR" c.props c.comps).writeTo k w

end

end Ical
