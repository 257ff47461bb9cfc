import Verif.Model.Errors
import Verif.Model.Calendar
import Verif.Model.Alarm

/-!
The unit tests of the crate, evaluated on the model. These are checks that the model follows the code, not
proofs of properties.
-/

namespace Ical

open Nom Component

namespace Sanity

local instance : Uni := Uni.ascii

/-- a clock that stands still, one UUID, hash maps in insertion order -/
abbrev w : World := ⟨fun _ => ⟨⟨⟨2026, 1, 1⟩, 0, 0, 0, 0⟩⟩, fun _ => c!"0-f", fun _ l => l⟩

/-! ### /repo/src/parser/utils.rs:83-120 -/

/-- documentation of `unfold` -/
example : unfold c!"this gets w\r\n rapped i\r\n n a w\r\n eird\r\n  way" =
    c!"this gets wrapped in a weird way" := by decide +kernel

/-- `test_unfold1` -/
example : unfold c!"1 hello world\r\n2 hello \r\n   world\r\n3 hello \r\n world\r\n4 hello world" =
    c!"1 hello world\r\n2 hello   world\r\n3 hello world\r\n4 hello world" := by decide +kernel

/-- `test_unfold1_tabs` -/
example : unfold c!"1 hello world\r\n2 hello \r\n\t\tworld\r\n3 hello \r\n\tworld\r\n4 hello world" =
    c!"1 hello world\r\n2 hello \tworld\r\n3 hello world\r\n4 hello world" := by decide +kernel

/-- `test_unfold2` -/
example : unfold c!"1 hello world\n2 hello \n   world\n3 hello world\n4 hello world" =
    c!"1 hello world\n2 hello   world\n3 hello world\n4 hello world" := by decide +kernel

/-! ### /repo/src/parser/parameters.rs:52-110, 181-207 -/

example : parameter c!";KEY=VALUE" = .ok [] ⟨c!"KEY", some c!"VALUE"⟩ := by decide +kernel

example : parameter c!"; KEY=VALUE" = .ok [] ⟨c!"KEY", some c!"VALUE"⟩ := by decide +kernel

example : parameter c!"; KEY=VAL UE" = .ok [] ⟨c!"KEY", some c!"VAL UE"⟩ := by decide +kernel

example : parameter c!"; KEY=" = .ok [] ⟨c!"KEY", none⟩ := by decide +kernel

example : parameter c!";KEY=VAL-UE" = .ok [] ⟨c!"KEY", some c!"VAL-UE"⟩ := by decide +kernel

example : parameter c!";KEY" = .ok [] ⟨c!"KEY", none⟩ := by decide +kernel

example : parameter c!";email=rust@hoodie.de" = .ok [] ⟨c!"email", some c!"rust@hoodie.de"⟩ := by decide +kernel

example : parameter c!";X-HOODIE-KEY=VALUE" = .ok [] ⟨c!"X-HOODIE-KEY", some c!"VALUE"⟩ := by decide +kernel

example : parameter c!";KEY=" = .ok [] ⟨c!"KEY", none⟩ := by decide +kernel

example : parameters c!";KEY=VALUE" = .ok [] [⟨c!"KEY", some c!"VALUE"⟩] := by decide +kernel

example : parameters c!";KEY=VALUE;DATE=TODAY" = .ok [] [⟨c!"KEY", some c!"VALUE"⟩, ⟨c!"DATE", some c!"TODAY"⟩] := by decide +kernel

example : parameters c!";KEY=VALUE;DATE=20170218" = .ok [] [⟨c!"KEY", some c!"VALUE"⟩, ⟨c!"DATE", some c!"20170218"⟩] := by decide +kernel

example : parameters c!";TEXT=\"quoted text with \\;\"" = .ok [] [⟨c!"TEXT", some c!"quoted text with \\;"⟩] := by decide +kernel

/-! ### /repo/src/parser/properties.rs:126-358 -/

example : property c!"KEY:VALUE\n" =
    .ok [] ⟨c!"KEY", c!"VALUE", []⟩ := by decide +kernel

example : property c!"KEY1;foo=bar:VALUE\n" =
    .ok [] ⟨c!"KEY1", c!"VALUE", [⟨c!"foo", some c!"bar"⟩]⟩ := by decide +kernel

example : property c!"KEY2;foo=bar:VALUE space separated\n" =
    .ok [] ⟨c!"KEY2", c!"VALUE space separated", [⟨c!"foo", some c!"bar"⟩]⟩ := by decide +kernel

example : property c!"KEY2;foo=bar:important:VALUE\n" =
    .ok [] ⟨c!"KEY2", c!"important:VALUE", [⟨c!"foo", some c!"bar"⟩]⟩ := by decide +kernel

example : property c!"DESCRIPTION:https\\://example.com\n" =
    .ok [] ⟨c!"DESCRIPTION", c!"https://example.com", []⟩ := by decide +kernel

example : property c!"URL:https://example.com\n" =
    .ok [] ⟨c!"URL", c!"https://example.com", []⟩ := by decide +kernel

example : property c!"DESCRIPTION;foo=bar:VALUE\\n newline separated\n" =
    .ok [] ⟨c!"DESCRIPTION", c!"VALUE\n newline separated", [⟨c!"foo", some c!"bar"⟩]⟩ := by decide +kernel

example : property c!"FOO;VALUE=TEXT:VALUE\\n newline separated\n" =
    .ok [] ⟨c!"FOO", c!"VALUE\n newline separated", [⟨c!"VALUE", some c!"TEXT"⟩]⟩ := by decide +kernel

example : property c!"FOO_AS_TEXT;VALUE=TEXT:https\\://example.com\n" =
    .ok [] ⟨c!"FOO_AS_TEXT", c!"https://example.com", [⟨c!"VALUE", some c!"TEXT"⟩]⟩ := by decide +kernel

example : property c!"FOO_AS_URL;VALUE=URL:https\\://example.com\n" =
    .ok [] ⟨c!"FOO_AS_URL", c!"https\\://example.com", [⟨c!"VALUE", some c!"URL"⟩]⟩ := by decide +kernel

example : property c!"X-HOODIE-KEY:VALUE\n" =
    .ok [] ⟨c!"X-HOODIE-KEY", c!"VALUE", []⟩ := by decide +kernel

example : property c!"home.tel;type=fax,voice,msg:+49 3581 123456\n" =
    .ok [] ⟨c!"home.tel", c!"+49 3581 123456", [⟨c!"type", some c!"fax,voice,msg"⟩]⟩ := by decide +kernel

example : property c!"email;internet:mb@goerlitz.de\n" =
    .ok [] ⟨c!"email", c!"mb@goerlitz.de", [⟨c!"internet", none⟩]⟩ := by decide +kernel

example : property c!"DESCRIPTION:Hey, I'm gonna have a party\\n BYOB: Bring your own beer.\\n Hendrik\\n\n" =
    .ok [] ⟨c!"DESCRIPTION", c!"Hey, I'm gonna have a party\n BYOB: Bring your own beer.\n Hendrik\n", []⟩ := by decide +kernel

example : property c!"RELATED-TO;RELTYPE=:c605e4e8-8ea3-4315-b139-19394ab3ced6\n" =
    .ok [] ⟨c!"RELATED-TO", c!"c605e4e8-8ea3-4315-b139-19394ab3ced6", [⟨c!"RELTYPE", none⟩]⟩ := by decide +kernel

example : property c!"X-NO-VALUE" =
    .ok [] ⟨c!"X-NO-VALUE", c!"", []⟩ := by decide +kernel

example : property c!"END;RELTYPE=:c605e4e8-8ea3-4315-b139-19394ab3ced6\n" = .failure := by decide +kernel

/-! ### /repo/src/parser/components.rs:180-232, 297-513 -/

example : component c!"BEGIN:VEVENT\nEND:VEVENT\n" =
    .ok [] (.mk c!"VEVENT" [] []) := rfl

example : component c!"BEGIN:VEVENT\n\nEND:VEVENT\n" =
    .ok [] (.mk c!"VEVENT" [] []) := rfl

example : component c!"BEGIN:X-HOODIE-EVENT\n\nEND:X-HOODIE-EVENT\n" =
    .ok [] (.mk c!"X-HOODIE-EVENT" [] []) := rfl

example : component c!"BEGIN:VEVENT\nKEY;foo=bar:VALUE\nKEY;foo=bar;DATE=20170218:VALUE\nEND:VEVENT\n" =
    .ok [] (.mk c!"VEVENT" [⟨c!"KEY", c!"VALUE", [⟨c!"foo", some c!"bar"⟩]⟩, ⟨c!"KEY", c!"VALUE", [⟨c!"foo", some c!"bar"⟩, ⟨c!"DATE", some c!"20170218"⟩]⟩] []) := rfl

example : component c!"BEGIN:FOO\nEND:FOO" =
    .ok [] (.mk c!"FOO" [] []) := rfl

example : component c!"BEGIN:FOO\nFOO-PROP:important: spam €\nEND:FOO" =
    .ok [] (.mk c!"FOO" [⟨c!"FOO-PROP", c!"important: spam €", []⟩] []) := rfl

example : component c!"BEGIN:FOO\nUID:e1c97b31-38bb-4b72-b94f-463a12ef5239\nFOO-PROP:sp.am\nEND:FOO" =
    .ok [] (.mk c!"FOO" [⟨c!"UID", c!"e1c97b31-38bb-4b72-b94f-463a12ef5239", []⟩, ⟨c!"FOO-PROP", c!"sp.am", []⟩] []) := rfl

example : component c!"BEGIN:FOO\nFOO-PROP:spam\nBEGIN:BAR\nBAR-PROP:spam\nEND:BAR\nEND:FOO" =
    .ok [] (.mk c!"FOO" [⟨c!"FOO-PROP", c!"spam", []⟩] [(.mk c!"BAR" [⟨c!"BAR-PROP", c!"spam", []⟩] [])]) := rfl

example : component c!"BEGIN:FOO\nFOO-PROP:spam\nBEGIN:BAR\nBAR-PROP:spam\nBEGIN:BAR\nBAR-PROP:spam\nEND:BAR\nEND:BAR\nEND:FOO" =
    .ok [] (.mk c!"FOO" [⟨c!"FOO-PROP", c!"spam", []⟩] [(.mk c!"BAR" [⟨c!"BAR-PROP", c!"spam", []⟩] [(.mk c!"BAR" [⟨c!"BAR-PROP", c!"spam", []⟩] [])])]) := rfl

example : component c!"\nBEGIN:VEVENT\nBEGIN:VALARM\nRELATED-TO;RELTYPE=:c605e4e8-8ea3-4315-b139-19394ab3ced6\nEND:VALARM\nEND:VEVENT\n" =
    .ok [] (.mk c!"VEVENT" [] [(.mk c!"VALARM" [⟨c!"RELATED-TO", c!"c605e4e8-8ea3-4315-b139-19394ab3ced6", [⟨c!"RELTYPE", none⟩]⟩] [])]) := rfl

example : component c!"BEGIN:FOO\nFOO-PROP:spam\nBEGIN:BAR\nBAR-PROP:spam\nEND:BAR\nBEGIN:BAR\nBAR-PROP:spam\nEND:BAR\nEND:FOO" =
    .ok [] (.mk c!"FOO" [⟨c!"FOO-PROP", c!"spam", []⟩] [(.mk c!"BAR" [⟨c!"BAR-PROP", c!"spam", []⟩] []), (.mk c!"BAR" [⟨c!"BAR-PROP", c!"spam", []⟩] [])]) := rfl

/-- `test_faulty_component` -/
example : component c!"BEGIN:FOO\nEND:F0O" = .failure := rfl

/-- `test_multi_properties` -/
example : (readComponent c!"\nBEGIN:VEVENT\nATTENDEE;CUTYPE=INDIVIDUAL;EMAIL=\"email@example.com\":mailto:email@example.com\nATTENDEE;CUTYPE=INDIVIDUAL;EMAIL=\"dmail@example.com\":mailto:dmail@example.com\nEND:VEVENT\n").map (fun c => (c.toInner.props, c.toInner.multi, c.toInner.comps.length)) =
    some ([], [(c!"ATTENDEE", [⟨c!"ATTENDEE", c!"mailto:email@example.com", [(c!"CUTYPE", c!"INDIVIDUAL"), (c!"EMAIL", c!"email@example.com")]⟩,
      ⟨c!"ATTENDEE", c!"mailto:dmail@example.com", [(c!"CUTYPE", c!"INDIVIDUAL"), (c!"EMAIL", c!"dmail@example.com")]⟩])], 0) := by decide +kernel

/-! ### /repo/src/parser/calendar.rs:52-70, /repo/src/parser/tests.rs -/

/-- `test_calendar_from_parse_calendar` -/
example : (readCalendar c!"\nBEGIN:VCALENDAR\nVERSION:3.0\nPRODID:MANUAL\nX-CALSCALE:HENDRIKIAN\nEND:VCALENDAR\n").map PCal.toCalendar =
    some ⟨[⟨c!"VERSION", c!"3.0", []⟩, ⟨c!"PRODID", c!"MANUAL", []⟩, ⟨c!"X-CALSCALE", c!"HENDRIKIAN", []⟩], []⟩ := rfl

/-- `rfc_2425_8_3_3` (key shortened) -/
example : (readCalendar (unfold c!"begin:vcard\nsource:ldap://cn=Meister%20Berger,o=Universitaet%20Goerlitz,c=DE\nname:Meister Berger\nfn:Meister Berger\nn:Berger;Meister\nbday;value=date:1963-09-21\no:Universit=E6t G=F6rlitz\ntitle:Mayor\ntitle;language=de;value=text:Burgermeister\nnote:The Mayor of the great city of\n  Goerlitz in the great country of Germany.\nemail;internet:mb@goerlitz.de\nhome.tel;type=fax,voice,msg:+49 3581 123456\nhome.label:Hufenshlagel 1234\\n\n 02828 Goerlitz\\n\n Deutschland\nkey;type=X509;encoding=b:MIICajCCAdOgAwIBAgICBEUwDQYJKoZIhvcNAQEEBQ\n AwdzELMAkGA1UEBhMCVVMxLDAqBgNVBAoTI05ldHNjYXBlIENvbW11bmljYXRpb25zI\n UMk1U7jt8LYpo4YULU7UZHPYVUaSgVttImOHZIKi4hlPXBOhcUQ==\nend:vcard")).isSome = true := by decide +kernel

/-! ### /repo/src/properties.rs:426-495 -/

example : foldLine c!"This is a short line" = .ok c!"This is a short line" := by decide +kernel

example : foldLine c!"Content lines shouldn't be folded in the middle of a UTF-8 character. 老虎." =
    .ok c!"Content lines shouldn't be folded in the middle of a UTF-8 character. 老\r\n 虎." := by decide +kernel

example : escapeText c!"\n\\;,:" = c!"\\N\\\\\\;\\,:" := by decide +kernel

example : ((Property.new c!"DESCRIPTION" c!"\n\\;,:").addParameter c!"VALUE" c!"TEXT").fmtWrite w =
    .ok c!"DESCRIPTION;VALUE=TEXT:\\N\\\\\\;\\,:\r\n" := by decide +kernel

example : (foldLine c!"01234567890123456789012345678901234567890123456789012345HERE_COMES_A_SPACE( )").map unfold =
    .ok c!"01234567890123456789012345678901234567890123456789012345HERE_COMES_A_SPACE( )" := by decide +kernel

example : (foldLine c!"01234567890123456789012345678901234567890123456789012345HERE_COMES_A_SPACE( )<-----78901234567890123456789012345678901234567890123HERE_COMES_A_SPACE( )<---").map unfold =
    .ok c!"01234567890123456789012345678901234567890123456789012345HERE_COMES_A_SPACE( )<-----78901234567890123456789012345678901234567890123HERE_COMES_A_SPACE( )<---" := by decide +kernel

example : (Property.new c!"SUMMARY" c!"This is a summary").fmtWrite w = .ok c!"SUMMARY:This is a summary\r\n" := by decide +kernel

/-! ### /repo/src/calendar.rs:310-381 -/

example : (Calendar.new.extend [.event Event.new, .event Event.new]).comps.length = 2 := rfl

example : Calendar.new.getName = none := by decide +kernel

example : Calendar.new.getDescription = none := by decide +kernel

example : Calendar.new.getTimezone = none := by decide +kernel

example : (((Calendar.new.name c!"name").description c!"description").timezone c!"timezone").done.1.getName =
    some c!"name" := by decide +kernel

example : (((Calendar.new.name c!"name").description c!"description").timezone c!"timezone").done.1.getDescription =
    some c!"description" := by decide +kernel

example : (((Calendar.new.name c!"name").description c!"description").timezone c!"timezone").done.1.getTimezone =
    some c!"timezone" := by decide +kernel

example : (((Calendar.new.appendProperty (.new c!"X-WR-CALNAME" c!"name")).appendProperty
    (.new c!"X-WR-CALDESC" c!"description")).appendProperty (.new c!"X-WR-TIMEZONE" c!"timezone")).getName =
    some c!"name" := by decide +kernel

example : (((Calendar.new.appendProperty (.new c!"X-WR-CALNAME" c!"name")).appendProperty
    (.new c!"X-WR-CALDESC" c!"description")).appendProperty (.new c!"X-WR-TIMEZONE" c!"timezone")).getDescription =
    some c!"description" := by decide +kernel

example : (((Calendar.new.appendProperty (.new c!"X-WR-CALNAME" c!"name")).appendProperty
    (.new c!"X-WR-CALDESC" c!"description")).appendProperty (.new c!"X-WR-TIMEZONE" c!"timezone")).getTimezone =
    some c!"timezone" := by decide +kernel

/-- `emit_parse_icalendar` -/
example : ((Calendar.new.appendProperty (.new c!"FOOBAR" c!"foobar")).fmtWrite w).map
    (fun s => (Calendar.fromStr s).bind (fun c => c.propertyValue c!"FOOBAR")) = .ok (some c!"foobar") := by decide +kernel

/-! ### /repo/src/components.rs:449-559 -/

/-- `get_url` -/
example : (Component.fmtWrite (Component.url Event.new c!"http://hoodie.de/") w).map
    (fun s => (readComponent s).bind (fun c => Component.getUrl c.toOther)) = .ok (some c!"http://hoodie.de/") := by decide +kernel

/-- `get_properties_set` -/
def sampleEvent : Event :=
  (url (class_ (uid (location (description (summary (priority Event.new 5) c!"summary") c!"description")
    c!"location") c!"uid") .priv) c!"http://some.test/url").done.1

example : getPriority sampleEvent = some 5 ∧ getSummary sampleEvent = some c!"summary" ∧
    getDescription sampleEvent = some c!"description" ∧ getLocation sampleEvent = some c!"location" ∧
    getUid sampleEvent = some c!"uid" ∧ getClass sampleEvent = some .priv ∧
    getUrl sampleEvent = some c!"http://some.test/url" := by decide +kernel

/-- `get_properties_unset` -/
example : getPriority Event.new = none ∧ getSummary Event.new = none ∧ getDescription Event.new = none ∧
    getLocation Event.new = none ∧ getUid Event.new = none ∧ getClass Event.new = none ∧ getTimestamp Event.new = none ∧
    getLastModified Event.new = none ∧ getCreated Event.new = none ∧ getUrl Event.new = none ∧
    Event.new.getStatus = none := by decide +kernel

/-- 2001-03-13 14:15:16 -/
abbrev sampleTime : NaiveDateTime := ⟨⟨2001, 3, 13⟩, 14, 15, 16, 0⟩

/-- `get_date_times_naive` -/
example : getStart (ends (starts Event.new (.dateTime (.floating sampleTime))) (.dateTime (.floating sampleTime))) = some (.dateTime (.floating sampleTime)) ∧
    getEnd (ends (starts Event.new (.dateTime (.floating sampleTime))) (.dateTime (.floating sampleTime))) = some (.dateTime (.floating sampleTime)) := by decide +kernel

/-- `get_date_times_utc` -/
example : getStart (ends (starts Event.new (.dateTime (.utc ⟨sampleTime⟩))) (.dateTime (.utc ⟨sampleTime⟩))) = some (.dateTime (.utc ⟨sampleTime⟩)) ∧
    getEnd (ends (starts Event.new (.dateTime (.utc ⟨sampleTime⟩))) (.dateTime (.utc ⟨sampleTime⟩))) = some (.dateTime (.utc ⟨sampleTime⟩)) := by decide +kernel

/-- `get_date_times_tzid` -/
example : getStart (ends (starts Event.new (.dateTime (.zoned sampleTime c!"Pacific/Auckland"))) (.dateTime (.zoned sampleTime c!"Pacific/Auckland"))) = some (.dateTime (.zoned sampleTime c!"Pacific/Auckland")) ∧
    getEnd (ends (starts Event.new (.dateTime (.zoned sampleTime c!"Pacific/Auckland"))) (.dateTime (.zoned sampleTime c!"Pacific/Auckland"))) = some (.dateTime (.zoned sampleTime c!"Pacific/Auckland")) := by decide +kernel

/-- `get_dates_naive` -/
example : getStart (ends (starts Event.new (.date sampleTime.date)) (.date sampleTime.date)) = some (.date sampleTime.date) ∧
    getEnd (ends (starts Event.new (.date sampleTime.date)) (.date sampleTime.date)) = some (.date sampleTime.date) := by decide +kernel

example : getTimestamp (timestamp Event.new ⟨sampleTime⟩) = some ⟨sampleTime⟩ ∧
    getLastModified (lastModified Event.new ⟨sampleTime⟩) = some ⟨sampleTime⟩ ∧
    getCreated (created Event.new ⟨sampleTime⟩) = some ⟨sampleTime⟩ := by decide +kernel

/-! ### /repo/src/components/{event,todo,venue}.rs -/

example : (Event.new.status .tentative).getStatus = some .tentative := by decide +kernel

example : Todo.new.getPercentComplete = none ∧ Todo.new.getStatus = none ∧ Todo.new.getCompleted = none ∧
    Todo.new.getDue = none := by decide +kernel

example : (((Todo.new.percentComplete 42).status .needsAction).completed ⟨sampleTime⟩).getPercentComplete = some 42 ∧
    (((Todo.new.percentComplete 42).status .needsAction).completed ⟨sampleTime⟩).getStatus = some .needsAction ∧
    (((Todo.new.percentComplete 42).status .needsAction).completed ⟨sampleTime⟩).getCompleted = some ⟨sampleTime⟩ := by decide +kernel

example : (Todo.new.due (.dateTime (.floating sampleTime))).getDue = some (.dateTime (.floating sampleTime)) := by decide +kernel

example : (Todo.new.due (.dateTime (.utc ⟨sampleTime⟩))).getDue = some (.dateTime (.utc ⟨sampleTime⟩)) := by decide +kernel

example : (Todo.new.due (.date sampleTime.date)).getDue = some (.date sampleTime.date) := by decide +kernel

/-! ### /repo/src/components/date_time.rs:406-527 -/

example : DatePerhapsTime.tryFromParsed ⟨c!"TRIGGER", c!"20220716T141500Z", [⟨c!"VALUE", some c!"DATE-TIME"⟩]⟩ = some (.dateTime (.utc ⟨⟨⟨2022, 7, 16⟩, 14, 15, 0, 0⟩⟩)) := by decide +kernel

example : DatePerhapsTime.tryFromParsed ⟨c!"TRIGGER", c!"19970714", [⟨c!"VALUE", some c!"DATE-TIME"⟩]⟩ = some (.date ⟨1997, 7, 14⟩) := by decide +kernel

example : DatePerhapsTime.tryFromParsed ⟨c!"TRIGGER", c!"20220716T141500", [⟨c!"VALUE", some c!"DATE-TIME"⟩, ⟨c!"TZID", some c!"MY-TZ-ID"⟩]⟩ =
    some (.dateTime (.zoned ⟨⟨2022, 7, 16⟩, 14, 15, 0, 0⟩ c!"MY-TZ-ID")) := by decide +kernel

example : DatePerhapsTime.tryFromParsed ⟨c!"TRIGGER", c!"20220716T141500", [⟨c!"VALUE", some c!"DATE-TIME"⟩, ⟨c!"TZID", none⟩]⟩ = none := by decide +kernel

example : DatePerhapsTime.tryFromParsed ⟨c!"TRIGGER", c!"20220716T141500", [⟨c!"VALUE", some c!"DATE-TIME"⟩]⟩ = some (.dateTime (.floating ⟨⟨2022, 7, 16⟩, 14, 15, 0, 0⟩)) := by decide +kernel

example : DatePerhapsTime.tryFromParsed ⟨c!"TZNAME", c!"CET", []⟩ = none := by decide +kernel

/-! ### /repo/src/components/alarm.rs:237-267, 396-402, 571-609 -/

/-- `test_repeat_default` -/
example : (repeatToProperty 0).fmtWrite w = .ok c!"REPEAT:0\r\n" := by decide +kernel

/-- 15 minutes and 5 minutes -/
abbrev min15 : Duration := ⟨900000000000⟩
abbrev min5 : Duration := ⟨300000000000⟩

/-- `test_audio` -/
example : ((Alarm.audio (.duration min15 (some .start))).durationAndRepeat min5 3).getAction = some .audio := by decide +kernel

example : (Component.propertyValue ((Alarm.audio (.duration min15 (some .start))).durationAndRepeat min5 3) c!"REPEAT").bind
    (parseUnsigned u32Max) = some 3 := by decide +kernel

/-- `test_display` -/
example : (Alarm.display c!"test alarm with display" (.dateTime (.floating ⟨⟨2015, 10, 26⟩, 1, 22, 0, 0⟩))).getAction = some .display ∧
    Component.getDescription (Alarm.display c!"test alarm with display" (.dateTime (.floating ⟨⟨2015, 10, 26⟩, 1, 22, 0, 0⟩))) = some c!"test alarm with display" := by decide +kernel

/-! ### /repo/tests/alarm.rs -/

/-- the alarm of `test_alarm_to_string` -/
def sampleAlarm : Alarm :=
  (addProperty (uid ((Alarm.audio (.dateTime (.utc ⟨⟨⟨1998, 4, 3⟩, 12, 0, 0, 0⟩⟩))).durationAndRepeat ⟨3600000000000⟩ 4)
    c!"OverwriteForConsistency") c!"DTSTAMP" c!"19980130T134500Z").done.1

/-- the to-do of `test_alarm_to_string` -/
def sampleTodo : Todo :=
  (appendComponent (summary ((Todo.due (starts (sequence (addProperty (uid Todo.new c!"uid4@example.com")
    c!"DTSTAMP" c!"19980130T134500Z") 2) (.dateTime (.utc ⟨⟨⟨1998, 1, 30⟩, 13, 45, 0, 0⟩⟩)))
    (.dateTime (.floating ⟨⟨1998, 4, 15⟩, 0, 0, 0, 0⟩))).status .needsAction) c!"Submit Income Taxes")
    (toOther sampleAlarm)).done.1

/-- `test_alarm_to_string` -/
example : (Calendar.new.push (.todo sampleTodo)).fmtWrite w = .ok
    (c!"BEGIN:VCALENDAR\r\n"
     ++ c!"VERSION:2.0\r\n"
     ++ c!"PRODID:ICALENDAR-RS\r\n"
     ++ c!"CALSCALE:GREGORIAN\r\n"
     ++ c!"BEGIN:VTODO\r\n"
     ++ c!"DTSTAMP:19980130T134500Z\r\n"
     ++ c!"DTSTART:19980130T134500Z\r\n"
     ++ c!"DUE:19980415T000000\r\n"
     ++ c!"SEQUENCE:2\r\n"
     ++ c!"STATUS:NEEDS-ACTION\r\n"
     ++ c!"SUMMARY:Submit Income Taxes\r\n"
     ++ c!"UID:uid4@example.com\r\n"
     ++ c!"BEGIN:VALARM\r\n"
     ++ c!"ACTION:AUDIO\r\n"
     ++ c!"DTSTAMP:19980130T134500Z\r\n"
     ++ c!"DURATION:PT3600S\r\n"
     ++ c!"REPEAT:4\r\n"
     ++ c!"TRIGGER;VALUE=DATE-TIME:19980403T120000Z\r\n"
     ++ c!"UID:OverwriteForConsistency\r\n"
     ++ c!"END:VALARM\r\n"
     ++ c!"END:VTODO\r\n"
     ++ c!"END:VCALENDAR\r\n") := by decide +kernel

/-! ### /repo/tests/calendar.rs -/

/-- the event of `test_calendar_to_string` -/
def sampleEvent2 : Event :=
  (addProperty (class_ (uid (location (description (summary (priority (ends (starts (Event.new.status .tentative)
    (.dateTime (.utc ⟨⟨⟨2014, 7, 8⟩, 7, 10, 11, 0⟩⟩))) (.dateTime (.utc ⟨⟨⟨2014, 7, 9⟩, 9, 10, 11, 0⟩⟩))) 11)
    c!"summary") c!"Description") c!"Somewhere") c!"euid") .confidential) c!"DTSTAMP" c!"20190307T181159").done.1

/-- the to-do of `test_calendar_to_string` -/
def sampleTodo2 : Todo :=
  (addProperty (uid (summary (((Todo.new.percentComplete 95).due (.dateTime (.floating ⟨⟨2014, 7, 8⟩, 9, 10, 11, 0⟩))).completed
    ⟨⟨⟨2014, 7, 9⟩, 9, 10, 11, 0⟩⟩) c!"A Todo") c!"todouid") c!"DTSTAMP" c!"20190307T181159").done.1

/-- `test_calendar_to_string` -/
example : ((Calendar.new.push (.event sampleEvent2)).push (.todo sampleTodo2)).fmtWrite w = .ok
    (c!"BEGIN:VCALENDAR\r\n"
     ++ c!"VERSION:2.0\r\n"
     ++ c!"PRODID:ICALENDAR-RS\r\n"
     ++ c!"CALSCALE:GREGORIAN\r\n"
     ++ c!"BEGIN:VEVENT\r\n"
     ++ c!"CLASS:CONFIDENTIAL\r\n"
     ++ c!"DESCRIPTION:Description\r\n"
     ++ c!"DTEND:20140709T091011Z\r\n"
     ++ c!"DTSTAMP:20190307T181159\r\n"
     ++ c!"DTSTART:20140708T071011Z\r\n"
     ++ c!"LOCATION:Somewhere\r\n"
     ++ c!"PRIORITY:10\r\n"
     ++ c!"STATUS:TENTATIVE\r\n"
     ++ c!"SUMMARY:summary\r\n"
     ++ c!"UID:euid\r\n"
     ++ c!"END:VEVENT\r\n"
     ++ c!"BEGIN:VTODO\r\n"
     ++ c!"COMPLETED:20140709T091011Z\r\n"
     ++ c!"DTSTAMP:20190307T181159\r\n"
     ++ c!"DUE:20140708T091011\r\n"
     ++ c!"PERCENT-COMPLETE:95\r\n"
     ++ c!"SUMMARY:A Todo\r\n"
     ++ c!"UID:todouid\r\n"
     ++ c!"END:VTODO\r\n"
     ++ c!"END:VCALENDAR\r\n") := by decide +kernel

/-! ### /repo/tests/reserialize.rs -/

/-- the text of `reserialization` -/
def reserializeSample : Str :=
  c!"BEGIN:VCALENDAR\r\n"
     ++ c!"VERSION:2.0\r\n"
     ++ c!"PRODID:ICALENDAR-RS\r\n"
     ++ c!"CALSCALE:GREGORIAN\r\n"
     ++ c!"BEGIN:VEVENT\r\n"
     ++ c!"CLASS:CONFIDENTIAL\r\n"
     ++ c!"DESCRIPTION:Description\r\n"
     ++ c!"DTEND:20140709T091011Z\r\n"
     ++ c!"DTSTAMP:20190307T181159\r\n"
     ++ c!"DTSTART:20140708T071011Z\r\n"
     ++ c!"LOCATION:Somewhere\r\n"
     ++ c!"PRIORITY:10\r\n"
     ++ c!"STATUS:TENTATIVE\r\n"
     ++ c!"SUMMARY:summary\r\n"
     ++ c!"UID:euid\r\n"
     ++ c!"END:VEVENT\r\n"
     ++ c!"BEGIN:VTODO\r\n"
     ++ c!"COMPLETED:20140709T091011Z\r\n"
     ++ c!"DTSTAMP:20190307T181159\r\n"
     ++ c!"DUE:20140708T091011\r\n"
     ++ c!"PERCENT-COMPLETE:95\r\n"
     ++ c!"SUMMARY:A Todo\r\n"
     ++ c!"UID:todouid\r\n"
     ++ c!"END:VTODO\r\n"
     ++ c!"BEGIN:VALARM\r\n"
     ++ c!"TRIGGER;RELATED=END:-P2D\r\n"
     ++ c!"ACTION:EMAIL\r\n"
     ++ c!"ATTENDEE:\"mailto:john_doe@example.com\"\r\n"
     ++ c!"SUMMARY:*** REMINDER: SEND AGENDA FOR WEEKLY STAFF MEETING ***\r\n"
     ++ c!"DESCRIPTION:A draft agenda needs to be sent out to the attendees to the wee\r\n"
     ++ c!" kly managers meeting (MGR-LIST). Attached is a pointer the document templa\r\n"
     ++ c!" te for the agenda file.\r\n"
     ++ c!"ATTACH;FMTTYPE=application/msword:http://example.com/templates/agenda.doc\r\n"
     ++ c!"END:VALARM\r\n"
     ++ c!"END:VCALENDAR\r\n"

/-- `reserialization` -/
example : (readCalendar (unfold reserializeSample)).map (fun c => c.fmtWrite w) = some (.ok reserializeSample) := by decide +kernel

/-! ### /repo/tests/full_circle.rs -/

/-- the event of `init_test_event` -/
def circleEvent : Event :=
  (uid (appendProperty (class_ (description (summary Event.new c!";IMPORTANCE=very;test event")
    c!"this, contains: many escapeworthy->\n<-;characters") .confidential)
    ((((Property.new c!"TEST" c!"FOOBAR").addParameter c!"IMPORTANCE" c!"very").addParameter c!"COMPLEX"
      c!"this is code; I think").addParameter c!"keyval" c!"color:red")) c!"my.own.id").done.1

/-- `unescape_text` -/
example : (((Calendar.new.push (.event circleEvent)).push (.todo (summary Todo.new c!"Buy some: milk"))).fmtWrite w).map
    (fun s => (Calendar.fromStr s).map (fun c => c.comps.map (fun x => (x.asEvent.bind getSummary, x.asEvent.bind getDescription)))) =
    .ok (some [(some c!";IMPORTANCE=very;test event", some c!"this, contains: many escapeworthy->\n<-;characters"), (none, none)]) := by decide +kernel

/-! ### error payloads -/

/-- `parse_invalid_property` (/repo/src/parser/properties.rs) -/
example : EP.property.payload c!"END;RELTYPE=:c605e4e8-8ea3-4315-b139-19394ab3ced6\n" =
    some [(c!"END;RELTYPE=:c605e4e8-8ea3-4315-b139-19394ab3ced6\n", .nom c!"Satisfy"),
      (c!"END;RELTYPE=:c605e4e8-8ea3-4315-b139-19394ab3ced6\n", .context c!"property cannot be END or BEGIN"),
      (c!"END;RELTYPE=:c605e4e8-8ea3-4315-b139-19394ab3ced6\n", .context c!"property")] := by decide +kernel

/-- `test_faulty_component` (/repo/src/parser/components.rs) -/
example : EP.component.payload c!"BEGIN:FOO\nEND:F0O" =
    some [(c!"F0O", .nom c!"Tag"), (c!"F0O", .context c!"mismatching end")] := by decide +kernel

end Sanity

end Ical
