import Verif.Spec.Merge
import Verif.Props.Clean
import Verif.Props.Built
import Verif.Props.Presentation

/-!
C134: calendars can be merged, filtered and split.
-/

namespace Ical

open Spec

variable [Uni]

theorem new_props_ok : ∀ p ∈ Calendar.new.props, PropOk p :=
  (built_calendar_ok Calendar.new (.inl rfl) [] (by simp)).props

theorem taken_ok {files : List (Str × Calendar)} (hr : FilesRead files) {d : Calendar} (hd : TakenFrom files d) :
    CalendarOk d := by
  constructor
  · intro p hp
    rcases hd.props p hp with h | ⟨f, hf, h⟩
    · exact new_props_ok p h
    · exact (clean_read_ok f.1 f.2 (hr f hf).1 (hr f hf).2).props p h
  · intro x hx
    obtain ⟨f, hf, h⟩ := hd.comps x hx
    exact (clean_read_ok f.1 f.2 (hr f hf).1 (hr f hf).2).comps x h

/-- **C134.** Whatever is put together from calendars that were read can be written and read: nothing is lost or added. -/
theorem taken_reread {files : List (Str × Calendar)} (hr : FilesRead files) {d : Calendar} (hd : TakenFrom files d)
    (w : World) (hw : World.Ok w) (out : Str) (h : d.fmtWrite w = .ok out) :
    ∃ c, Calendar.fromStr out = some c ∧ CalStamped (rereadCal d) c :=
  calendar_reread d (taken_ok hr hd) w hw out h

omit [Uni] in
theorem foldl_append (l : List Calendar) (c : Calendar) :
    l.foldl (fun c d => (c.append d).1) c = { props := c.props, comps := c.comps ++ l.flatMap (·.comps) } := by
  induction l generalizing c with
  | nil => simp
  | cons d l ih => rw [List.foldl_cons, ih]; simp [Calendar.append]

/-- **C134.** Merging calendars read from files, in order, writing and reading: the components are those of all files. -/
theorem merged_reread {c : Calendar} {s : Str} {files : List (Str × Calendar)} (hr : FilesRead ((s, c) :: files))
    (w : World) (hw : World.Ok w) (out : Str)
    (h : ((files.map Prod.snd).foldl (fun c d => (c.append d).1) c).fmtWrite w = .ok out) :
    ∃ c', Calendar.fromStr out = some c' ∧
      CalStamped (rereadCal { props := c.props, comps := (c :: files.map Prod.snd).flatMap (·.comps) }) c' := by
  have e : (files.map Prod.snd).foldl (fun c d => (c.append d).1) c
      = { props := c.props, comps := (c :: files.map Prod.snd).flatMap (·.comps) } := by
    rw [foldl_append]; simp
  rw [e] at h
  refine taken_reread hr ⟨?_, ?_⟩ w hw out h
  · intro x hx
    obtain ⟨d, hd, hx'⟩ := List.mem_flatMap.1 hx
    rcases List.mem_cons.1 hd with rfl | hd
    · exact ⟨_, List.mem_cons_self, hx'⟩
    · obtain ⟨f, hf, rfl⟩ := List.mem_map.1 hd
      exact ⟨f, List.mem_cons_of_mem _ hf, hx'⟩
  · exact fun p hp => .inr ⟨_, List.mem_cons_self, hp⟩

theorem split_read {c : Calendar} (hc : CalendarOk c) (hs : CalendarSafe c)
    (hst : ∀ x ∈ c.comps, HasStamps x.toOther) (l : List CalComp) (hl : ∀ x ∈ l, x ∈ c.comps) (files : List Str)
    (h : SplitInto c l files) :
    ReadEach files (l.map (fun x => { props := c.props, comps := [x] })) := by
  induction l generalizing files with
  | nil => cases files <;> simp_all [SplitInto, ReadEach]
  | cons x l ih =>
    cases files with
    | nil => simp [SplitInto] at h
    | cons file files =>
      obtain ⟨⟨w, hw, h1⟩, h2⟩ := h
      have hx := hl x List.mem_cons_self
      refine ⟨calendar_roundtrip { props := c.props, comps := [x] } ⟨hc.props, ?_⟩ ⟨hs.props, ?_⟩ ?_ w hw file h1,
        ih (fun y hy => hl y (List.mem_cons_of_mem _ hy)) files h2⟩
      · intro y hy; rw [List.mem_singleton.1 hy]; exact hc.comps x hx
      · intro y hy; rw [List.mem_singleton.1 hy]; exact hs.comps x hx
      · intro y hy; rw [List.mem_singleton.1 hy]; exact hst x hx

/-- **C134.** A calendar written as one file for each component is the calendar that is merged from these files. -/
theorem split_merge {c : Calendar} (hc : CalendarOk c) (hs : CalendarSafe c)
    (hst : ∀ x ∈ c.comps, HasStamps x.toOther) (files : List Str) (h : SplitInto c c.comps files) :
    ∃ cs, ReadEach files cs ∧ cs.foldl (fun c d => (c.append d).1) { props := c.props, comps := [] } = c := by
  refine ⟨_, split_read hc hs hst c.comps (fun _ h => h) files h, ?_⟩
  rw [foldl_append]
  simp [List.flatMap_map]

omit [Uni] in
theorem onlyComps_props (l : List Item) : itemsProps (onlyComps l) = [] := by
  induction l with
  | nil => rfl
  | cons i l ih => cases i <;> simp [onlyComps, itemsProps, ih]

omit [Uni] in
theorem onlyComps_comps (l : List Item) : itemsComps (onlyComps l) = itemsComps l := by
  induction l with
  | nil => rfl
  | cons i l ih => cases i <;> simp [onlyComps, itemsComps, ih]

theorem presents_calendar {br : Break} {b e : Str} {l : List Item} (h : (Item.comp b e c!"VCALENDAR" l).Ok br) {file : Str}
    (hf : Presents br (.comp b e c!"VCALENDAR" l) file) :
    Calendar.fromStr file = some ⟨(itemsProps l).map PProp.toProperty, (itemsComps l).map PComp.toCalComp⟩ := by
  unfold Calendar.fromStr readCalendar
  rw [components_ok (presents_read h hf)]
  simp [finish, PComp.name, PCal.toCalendar, PComp.props, PComp.comps]

/-- **C134.** Appending the calendar of one file to that of another is what is read from the file in which the components
of the one have been inserted after the components of the other. -/
theorem merged_file {br br' br'' : Break} {b e b' e' b'' e'' : Str} {l l' : List Item}
    (h : (Item.comp b e c!"VCALENDAR" l).Ok br) (h' : (Item.comp b' e' c!"VCALENDAR" l').Ok br')
    (h'' : (Item.comp b'' e'' c!"VCALENDAR" (l ++ onlyComps l')).Ok br'') {file file' file'' : Str}
    (hf : Presents br (.comp b e c!"VCALENDAR" l) file) (hf' : Presents br' (.comp b' e' c!"VCALENDAR" l') file')
    (hf'' : Presents br'' (.comp b'' e'' c!"VCALENDAR" (l ++ onlyComps l')) file'') :
    ∃ c d, Calendar.fromStr file = some c ∧ Calendar.fromStr file' = some d ∧
      Calendar.fromStr file'' = some (c.append d).1 := by
  refine ⟨_, _, presents_calendar h hf, presents_calendar h' hf', ?_⟩
  rw [presents_calendar h'' hf'']
  simp [itemsProps_append, itemsComps_append, onlyComps_props, onlyComps_comps, Calendar.append]

end Ical
