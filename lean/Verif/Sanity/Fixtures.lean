import Verif.Model.Calendar

/-!
The fixtures of the crate, as read by the model. Each is accepted, as /repo/tests/parse_fixtures.rs:33-70 require. The
last fixture is not UTF-8 and is given as `String::from_utf8_lossy` decodes it. Left out: custom_component.ics, whose
4098 octets are too much for the kernel's stack.
-/

namespace Ical.Fixtures

local instance : Uni := Uni.ascii

/-- what is read from a text: the names of the calendar's properties, and for each component its name, how many properties
it has and the names of its sub-components -/
def outline (s : Str) : Option (List Str × List (Str × Nat × List Str)) :=
  (readCalendar (unfold s)).map (fun c => (c.props.map PProp.name,
    c.comps.map (fun x => (x.name, x.props.length, x.comps.map PComp.name))))

/-- /repo/fixtures/empty.ics. -/
example : outline (c!"BEGIN:VEVENT\nEND:VEVENT\n") =
    some ([], [(c!"VEVENT", 0, [])]) := by decide +kernel

/-- /repo/fixtures/icalendar-rb-bad-utf8/bad_wrapping.ics. -/
example : outline (c!"BEGIN:VCALENDAR\r\nVERSION:2.0\r\nPRODID:manual\r\nCALSCALE:GREGORIAN\r\nBEGIN:VEVENT\r\nDTSTAMP:20200902T2233" ++
    c!"52Z\r\nUID:6e7d7fe5-6735-4cdd-bfe4-761dfcecd7a7\r\nDTSTART;VALUE=DATE:20200902\r\nDTEND;VALUE=DATE:2020090" ++
    c!"3\r\nDESCRIPTION:Event description that puts a UTF-8 multi-octet sequence right\ufffd\r\n \ufffdhere.\r\nSUMMARY:UTF" ++
    c!"-8 multi-octet sequence test\r\nEND:VEVENT\r\nEND:VCALENDAR\r\n") =
    some ([c!"VERSION", c!"PRODID", c!"CALSCALE"], [(c!"VEVENT", 6, [])]) := by decide +kernel

/-- /repo/fixtures/icalendar-rb/event.ics. -/
example : outline (c!"BEGIN:VEVENT\nDTSTAMP:20050118T211523Z\nUID:bsuidfortestabc123\nDTSTART;TZID=US-Mountain:20050120T17000" ++
    c!"0\nDTEND;TZID=US-Mountain:20050120T184500\nCLASS:PRIVATE\nGEO:37.386013;-122.0829322\nORGANIZER:mailto:j" ++
    c!"oebob@random.net\nPRIORITY:2\nSUMMARY:This is a really long summary to test the method of unfolding li" ++
    c!"nes\n \\, so I'm just going to make it a whole bunch of lines.\nATTACH:http://bush.sucks.org/impeach/hi" ++
    c!"m.rhtml\nATTACH:http://corporations-dominate.existence.net/why.rhtml\nRDATE;TZID=US-Mountain:20050121T" ++
    c!"170000,20050122T170000\nX-TEST-COMPONENT;QTEST=\"Hello, World\":Shouldn't double double quotes\nEND:VEVE" ++
    c!"NT\n\n") =
    some ([], [(c!"VEVENT", 13, [])]) := by decide +kernel

/-- /repo/fixtures/icalendar-rb/nondefault_values.ics. -/
example : outline (c!"BEGIN:VCALENDAR\nVERSION:2.0\nCALSCALE:GREGORIAN\nPRODID:iCalendar-Ruby\nX-WR-CALNAME:Test Long Descript" ++
    c!"ion\nBEGIN:VEVENT\nDESCRIPTION:FULL DETAILS:\\nhttp://test.com/events/570\\n\\nCary Brothers walk\n s the " ++
    c!"same musical ground as Pete Yorn\\, Nick Drake\\, Jeff Buckley and othe\n rs\\; crafting emotional melod" ++
    c!"ies\\, with strong vocals and thoughtful lyrics\n . Brett Dennen has &quot\\;that thing.&quot\\; Inspire" ++
    c!"d fans describe it: &qu\n ot\\;lush shimmering vocals\\, an intricately groovin&#39\\; guitar style\\, a " ++
    c!"\n lyrical beauty rare in a young songwriter\\,&quot\\; and &quot\\;this soulful \n blend of everything t" ++
    c!"hat feels good.&quot\\; Rising up around him is music\\;\n  transcending genres\\, genders and generatio" ++
    c!"ns.\nDTEND;VALUE=DATE:20061215\nDTSTAMP:20061215T114034\nDTSTART;VALUE=DATE:20061215\nSEQUENCE:1001\nSUMM" ++
    c!"ARY:DigiWorld 2006\nUID:foobar\nURL:http://test.com/events/644\nEND:VEVENT\nEND:VCALENDAR\n") =
    some ([c!"VERSION", c!"CALSCALE", c!"PRODID", c!"X-WR-CALNAME"], [(c!"VEVENT", 8, [])]) := by decide +kernel

/-- /repo/fixtures/icalendar-rb/nonstandard.ics. -/
example : outline (c!"BEGIN:VCALENDAR\nVERSION:2.0\nPRODID:bsprodidfortestabc123\nBEGIN:VEVENT\nUID:bsuidfortestabc123\nORGANIZ" ++
    c!"ER:mailto:joebob@random.net\nATTACH:http://bush.sucks.org/impeach/him.rhtml\nATTACH:http://corporation" ++
    c!"s-dominate.existence.net/why.rhtml\nSUMMARY:This is a really long summary\n  to test the method of unf" ++
    c!"olding lines\\,\n  so I'm just going to ma\n ke it\n  a whol\n e\n  bunch of lines.\nCLASS:PRIVATE\nPRIORITY" ++
    c!":2\nCUSTOMFIELD:Not properly noted as custom with X- prefix.\nGEO:37.386013;-122.0829322\nDTSTART;TZID=" ++
    c!"US-Mountain:20050120T170000\nDTEND:20050120T184500\nDTSTAMP:20050118T211523Z\nNAME:SomeName\nEND:VEVENT\n" ++
    c!"END:VCALENDAR\n") =
    some ([c!"VERSION", c!"PRODID"], [(c!"VEVENT", 13, [])]) := by decide +kernel

/-- /repo/fixtures/icalendar-rb/recurrence.ics. -/
example : outline (c!"BEGIN:VCALENDAR\r\nVERSION:2.0\r\nPRODID:bsprodidfortestabc123\r\nCALSCALE:GREGORIAN\r\nBEGIN:VEVENT\r\nDTSTAM" ++
    c!"P:20050118T211523Z\r\nUID:bsuidfortestabc123\r\nDTSTART;VALUE=DATE:20050323\r\nDTEND;VALUE=DATE:20050323\r\n" ++
    c!"CLASS:PRIVATE\r\nORGANIZER:mailto:joebob@random.net\r\nPRIORITY:2\r\nSUMMARY:This is a really long summary" ++
    c!" to test the method of unfolding lines\r\n \\, so I'm just going to make it a whole bunch of lines.\r\nEX" ++
    c!"DATE;VALUE=DATE:20120323,20130323\r\nRRULE:FREQ=YEARLY\r\nEND:VEVENT\r\nEND:VCALENDAR\r\n") =
    some ([c!"VERSION", c!"PRODID", c!"CALSCALE"], [(c!"VEVENT", 10, [])]) := by decide +kernel

/-- /repo/fixtures/icalendar-rb/single_event.ics. -/
example : outline (c!"BEGIN:VCALENDAR\r\nVERSION:2.0\r\nPRODID:bsprodidfortestabc123\r\nCALSCALE:GREGORIAN\r\nBEGIN:VEVENT\r\nDTSTAM" ++
    c!"P:20050118T211523Z\r\nUID:bsuidfortestabc123\r\nDTSTART;TZID=US-Mountain:20050120T170000\r\nDTEND;TZID=US-" ++
    c!"Mountain:20050120T184500\r\nCLASS:PRIVATE\r\nGEO:37.386013;-122.0829322\r\nORGANIZER;CN=\"Joe Bob: Magician" ++
    c!"\":mailto:joebob@random.net\r\nPRIORITY:2\r\nSUMMARY:This is a really long summary to test the method of " ++
    c!"unfolding lines\r\n \\, so I'm just going to make it a whole bunch of lines. With a twist: a \"\r\n \u00f6\" tak" ++
    c!"es up multiple bytes\\, and should be wrapped to the next line.\r\nATTACH:http://bush.sucks.org/impeach" ++
    c!"/him.rhtml\r\nATTACH:http://corporations-dominate.existence.net/why.rhtml\r\nRDATE;TZID=US-Mountain:2005" ++
    c!"0121T170000,20050122T170000\r\nX-TEST-COMPONENT;QTEST=\"Hello, World\":Shouldn't double double quotes\r\nE" ++
    c!"ND:VEVENT\r\nEND:VCALENDAR\r\n") =
    some ([c!"VERSION", c!"PRODID", c!"CALSCALE"], [(c!"VEVENT", 13, [])]) := by decide +kernel

/-- /repo/fixtures/icalendar-rb/single_event_bad_dtstart.ics. -/
example : outline (c!"BEGIN:VCALENDAR\r\nVERSION:2.0\r\nPRODID:bsprodidfortestabc123\r\nCALSCALE:GREGORIAN\r\nBEGIN:VEVENT\r\nDTSTAM" ++
    c!"P:20050118T211523Z\r\nUID:bsuidfortestabc123\r\nDTSTART:20050120\r\nDTEND;TZID=US-Mountain:20050120T184500" ++
    c!"\r\nCLASS:PRIVATE\r\nGEO:37.386013;-122.0829322\r\nORGANIZER:mailto:joebob@random.net\r\nPRIORITY:2\r\nSUMMARY" ++
    c!":This is a really long summary to test the method of unfolding lines\r\n \\, so I'm just going to make " ++
    c!"it a whole bunch of lines.\r\nATTACH:http://bush.sucks.org/impeach/him.rhtml\r\nATTACH:http://corporatio" ++
    c!"ns-dominate.existence.net/why.rhtml\r\nRDATE;TZID=US-Mountain:20050121T170000,20050122T170000\r\nX-TEST-" ++
    c!"COMPONENT;QTEST=\"Hello, World\":Shouldn't double double quotes\r\nEND:VEVENT\r\nEND:VCALENDAR\r\n") =
    some ([c!"VERSION", c!"PRODID", c!"CALSCALE"], [(c!"VEVENT", 13, [])]) := by decide +kernel

/-- /repo/fixtures/icalendar-rb/single_event_bad_line.ics. -/
example : outline (c!"BEGIN:VCALENDAR\r\nVERSION:2.0\r\nPRODID:bsprodidfortestabc123\r\nCALSCALE:GREGORIAN\r\nBEGIN:VEVENT\r\nDTSTAM" ++
    c!"P:20050118T211523Z\r\nUID:bsuidfortestabc123\r\nDTSTART;TZID=US-Mountain:20050120T170000\r\nDTEND;TZID=US-" ++
    c!"Mountain:20050120T184500\r\nCLASS:PRIVATE\r\nGEO:37.386013;-122.0829322\r\nORGANIZER:mailto:joebob@random." ++
    c!"net\r\nPRIORITY:2\r\nSUMMARY:This is a really long summary to test the method of unfolding lines\r\n \\, so" ++
    c!" I'm just going to make it a whole bunch of lines.\r\nATTACH:http://bush.sucks.org/impeach/him.rhtml\r\n" ++
    c!"ATTACH:http://corporations-dominate.existence.net/why.rhtml\r\nRDATE;TZID=US-Mountain:20050121T170000," ++
    c!"20050122T170000\r\nX-TEST-COMPONENT;QTEST=\"Hello, World\":Shouldn't double double quotes\r\nX-NO-VALUE\r\nE" ++
    c!"ND:VEVENT\r\nEND:VCALENDAR\r\n") =
    some ([c!"VERSION", c!"PRODID", c!"CALSCALE"], [(c!"VEVENT", 14, [])]) := by decide +kernel

/-- /repo/fixtures/icalendar-rb/single_event_bad_organizer.ics. -/
example : outline (c!"BEGIN:VCALENDAR\r\nVERSION:2.0\r\nPRODID:bsprodidfortestabc123\r\nCALSCALE:GREGORIAN\r\nBEGIN:VEVENT\r\nDTSTAM" ++
    c!"P:20050118T211523Z\r\nUID:bsuidfortestabc123\r\nDTSTART;TZID=US-Mountain:20050120T170000\r\nDTEND;TZID=US-" ++
    c!"Mountain:20050120T184500\r\nCLASS:PRIVATE\r\nGEO:37.386013;-122.0829322\r\nORGANIZER;CN=Joe Bob\\: Magician" ++
    c!":mailto:joebob@random.net\r\nPRIORITY:2\r\nSUMMARY:This is a really long summary to test the method of u" ++
    c!"nfolding lines\r\n \\, so I'm just going to make it a whole bunch of lines. With a twist: a \"\r\n \u00f6\" take" ++
    c!"s up multiple bytes\\, and should be wrapped to the next line.\r\nATTACH:http://bush.sucks.org/impeach/" ++
    c!"him.rhtml\r\nATTACH:http://corporations-dominate.existence.net/why.rhtml\r\nRDATE;TZID=US-Mountain:20050" ++
    c!"121T170000,20050122T170000\r\nX-TEST-COMPONENT;QTEST=\"Hello, World\":Shouldn't double double quotes\r\nEN" ++
    c!"D:VEVENT\r\nEND:VCALENDAR\r\n") =
    some ([c!"VERSION", c!"PRODID", c!"CALSCALE"], [(c!"VEVENT", 13, [])]) := by decide +kernel

/-- /repo/fixtures/icalendar-rb/single_event_organizer_parsed.ics. -/
example : outline (c!"BEGIN:VCALENDAR\r\nVERSION:2.0\r\nPRODID:bsprodidfortestabc123\r\nCALSCALE:GREGORIAN\r\nBEGIN:VEVENT\r\nDTSTAM" ++
    c!"P:20050118T211523Z\r\nUID:bsuidfortestabc123\r\nDTSTART;TZID=US-Mountain:20050120T170000\r\nDTEND;TZID=US-" ++
    c!"Mountain:20050120T184500\r\nCLASS:PRIVATE\r\nGEO:37.386013;-122.0829322\r\nORGANIZER;CN=Joe Bob\\:magician:" ++
    c!"mailto:joebob@random.net\r\nPRIORITY:2\r\nSUMMARY:This is a really long summary to test the method of un" ++
    c!"folding lines\r\n \\, so I'm just going to make it a whole bunch of lines. With a twist: a \"\r\n \u00f6\" takes" ++
    c!" up multiple bytes\\, and should be wrapped to the next line.\r\nATTACH:http://bush.sucks.org/impeach/h" ++
    c!"im.rhtml\r\nATTACH:http://corporations-dominate.existence.net/why.rhtml\r\nRDATE;TZID=US-Mountain:200501" ++
    c!"21T170000,20050122T170000\r\nX-TEST-COMPONENT;QTEST=\"Hello, World\":Shouldn't double double quotes\r\nEND" ++
    c!":VEVENT\r\nEND:VCALENDAR\r\n") =
    some ([c!"VERSION", c!"PRODID", c!"CALSCALE"], [(c!"VEVENT", 13, [])]) := by decide +kernel

/-- /repo/fixtures/icalendar-rb/timezone.ics. -/
example : outline (c!"BEGIN:VCALENDAR\r\nVERSION:2.0\r\nPRODID:icalendar-ruby\r\nCALSCALE:GREGORIAN\r\nBEGIN:VTIMEZONE\r\nTZID:Ameri" ++
    c!"ca/New_York\r\nBEGIN:DAYLIGHT\r\nDTSTART:20070311T020000\r\nTZOFFSETFROM:-0500\r\nTZOFFSETTO:-0400\r\nRRULE:FR" ++
    c!"EQ=YEARLY;BYDAY=2SU;BYMONTH=3\r\nTZNAME:EDT\r\nEND:DAYLIGHT\r\nBEGIN:STANDARD\r\nDTSTART:20071104T020000\r\nTZ" ++
    c!"OFFSETFROM:-0400\r\nTZOFFSETTO:-0500\r\nRRULE:FREQ=YEARLY;BYDAY=1SU;BYMONTH=11\r\nTZNAME:EST\r\nEND:STANDARD" ++
    c!"\r\nEND:VTIMEZONE\r\nBEGIN:VEVENT\r\nDTSTAMP:20120320T014112Z\r\nUID:9B9CB907-F25F-4D27-B6F3-6DE3A3397BC2\r\nD" ++
    c!"TSTART;TZID=America/New_York:20120323T190000\r\nDTEND;TZID=America/New_York:20120323T230000\r\nCREATED:2" ++
    c!"0120312T191609Z\r\nLAST-MODIFIED:20120320T014105Z\r\nLOCATION:Baltimore\r\nSEQUENCE:0\r\nSTATUS:CONFIRMED\r\nS" ++
    c!"UMMARY:Eastern Event\r\nTRANSP:OPAQUE\r\nEND:VEVENT\r\nEND:VCALENDAR\r\n") =
    some ([c!"VERSION", c!"PRODID", c!"CALSCALE"], [(c!"VTIMEZONE", 1, [c!"DAYLIGHT", c!"STANDARD"]), (c!"VEVENT", 11, [])]) := by decide +kernel

/-- /repo/fixtures/icalendar-rb/two_date_time_events.ics. -/
example : outline (c!"BEGIN:VCALENDAR\r\nMETHOD:PUBLISH\r\nVERSION:2.0\r\nX-WR-CALNAME:TMP\r\nPRODID:-//Apple Inc.//Mac OS X 10.9." ++
    c!"4//EN\r\nX-APPLE-CALENDAR-COLOR:#0E61B9\r\nX-WR-TIMEZONE:America/New_York\r\nCALSCALE:GREGORIAN\r\nBEGIN:VTI" ++
    c!"MEZONE\r\nTZID:America/New_York\r\nBEGIN:DAYLIGHT\r\nTZOFFSETFROM:-0500\r\nRRULE:FREQ=YEARLY;BYMONTH=3;BYDAY" ++
    c!"=2SU\r\nDTSTART:20070311T020000\r\nTZNAME:EDT\r\nTZOFFSETTO:-0400\r\nEND:DAYLIGHT\r\nBEGIN:STANDARD\r\nTZOFFSETF" ++
    c!"ROM:-0400\r\nRRULE:FREQ=YEARLY;BYMONTH=11;BYDAY=1SU\r\nDTSTART:20071104T020000\r\nTZNAME:EST\r\nTZOFFSETTO:-" ++
    c!"0500\r\nEND:STANDARD\r\nEND:VTIMEZONE\r\nBEGIN:VEVENT\r\nSTATUS:CONFIRMED\r\nCREATED:20140731T162556Z\r\nUID:7C4" ++
    c!"A5440-ABA5-4B32-A69D-AFD243B39FE1\r\nDTEND;TZID=America/New_York:20140714T100000\r\nTRANSP:OPAQUE\r\nSUMMA" ++
    c!"RY:9am\r\nLAST-MODIFIED:20140731T162556Z\r\nDTSTAMP:20140731T164042Z\r\nDTSTART;TZID=America/New_York:2014" ++
    c!"0714T090000\r\nLOCATION:\r\nSEQUENCE:13\r\nBEGIN:VALARM\r\nX-WR-ALARMUID:6F54CD66-F2A9-491D-8892-7E3209F6A2E" ++
    c!"4\r\nUID:6F54CD66-F2A9-491D-8892-7E3209F6A2E4\r\nTRIGGER;VALUE=DATE-TIME:19760401T005545Z\r\nACTION:NONE\r\n" ++
    c!"END:VALARM\r\nEND:VEVENT\r\nBEGIN:VEVENT\r\nSTATUS:CONFIRMED\r\nCREATED:20140731T162556Z\r\nUID:A50FA12F-BCA9-" ++
    c!"4822-A61D-E86EB7440A16\r\nDTEND;VALUE=DATE:20140715\r\nTRANSP:TRANSPARENT\r\nSUMMARY:All Day\r\nLAST-MODIFIE" ++
    c!"D:20140731T162556Z\r\nDTSTAMP:20140731T164829Z\r\nDTSTART;VALUE=DATE:20140714\r\nLOCATION:\r\nSEQUENCE:18\r\nB" ++
    c!"EGIN:VALARM\r\nX-WR-ALARMUID:295F2CF7-1C48-4E76-A8FC-718A1EBEDB76\r\nUID:295F2CF7-1C48-4E76-A8FC-718A1EB" ++
    c!"EDB76\r\nTRIGGER;VALUE=DATE-TIME:19760401T005545Z\r\nACTION:NONE\r\nEND:VALARM\r\nEND:VEVENT\r\nEND:VCALENDAR\r" ++
    c!"\n") =
    some ([c!"METHOD", c!"VERSION", c!"X-WR-CALNAME", c!"PRODID", c!"X-APPLE-CALENDAR-COLOR", c!"X-WR-TIMEZONE", c!"CALSCALE"], [(c!"VTIMEZONE", 1, [c!"DAYLIGHT", c!"STANDARD"]), (c!"VEVENT", 11, [c!"VALARM"]), (c!"VEVENT", 11, [c!"VALARM"])]) := by decide +kernel

/-- /repo/fixtures/icalendar-rb/two_day_events.ics. -/
example : outline (c!"BEGIN:VCALENDAR\r\nMETHOD:PUBLISH\r\nVERSION:2.0\r\nX-WR-CALNAME:TMP\r\nPRODID:-//Apple Inc.//Mac OS X 10.9." ++
    c!"4//EN\r\nX-APPLE-CALENDAR-COLOR:#0E61B9\r\nX-WR-TIMEZONE:America/New_York\r\nCALSCALE:GREGORIAN\r\nBEGIN:VEV" ++
    c!"ENT\r\nSTATUS:CONFIRMED\r\nCREATED:20140731T162556Z\r\nUID:A50FA12F-BCA9-4822-A61D-E86EB7440A16\r\nDTEND;VAL" ++
    c!"UE=DATE:20140715\r\nTRANSP:TRANSPARENT\r\nSUMMARY:Monday\r\nLAST-MODIFIED:20140731T162556Z\r\nDTSTAMP:201407" ++
    c!"31T162628Z\r\nDTSTART;VALUE=DATE:20140714\r\nLOCATION:\r\nSEQUENCE:3\r\nEND:VEVENT\r\nBEGIN:VEVENT\r\nSTATUS:CON" ++
    c!"FIRMED\r\nCREATED:20140731T162556Z\r\nUID:7C4A5440-ABA5-4B32-A69D-AFD243B39FE1\r\nDTEND;VALUE=DATE:2014071" ++
    c!"4\r\nTRANSP:TRANSPARENT\r\nSUMMARY:Sunday\r\nLAST-MODIFIED:20140731T162556Z\r\nDTSTAMP:20140731T162611Z\r\nDTS" ++
    c!"TART;VALUE=DATE:20140713\r\nLOCATION:\r\nSEQUENCE:5\r\nEND:VEVENT\r\nEND:VCALENDAR\r\n") =
    some ([c!"METHOD", c!"VERSION", c!"X-WR-CALNAME", c!"PRODID", c!"X-APPLE-CALENDAR-COLOR", c!"X-WR-TIMEZONE", c!"CALSCALE"], [(c!"VEVENT", 11, []), (c!"VEVENT", 11, [])]) := by decide +kernel

/-- /repo/fixtures/icalendar-rb/two_events.ics. It consists of two calendars, and nothing of them is read (C93). -/
example : outline (c!"BEGIN:VEVENT\nDTSTAMP:20050118T211523Z\nUID:bsuidfortestabc123\nDTSTART;TZID=US-Mountain:20050120T17000" ++
    c!"0\nDTEND;TZID=US-Mountain:20050120T184500\nCLASS:PRIVATE\nGEO:37.386013;-122.0829322\nORGANIZER:mailto:j" ++
    c!"oebob@random.net\nPRIORITY:2\nSUMMARY:This is a really long summary to test the method of unfolding li" ++
    c!"nes\n \\, so I'm just going to make it a whole bunch of lines.\nATTACH:http://bush.sucks.org/impeach/hi" ++
    c!"m.rhtml\nATTACH:http://corporations-dominate.existence.net/why.rhtml\nRDATE;TZID=US-Mountain:20050121T" ++
    c!"170000,20050122T170000\nX-TEST-COMPONENT;QTEST=\"Hello, World\":Shouldn't double double quotes\nEND:VEVE" ++
    c!"NT\nBEGIN:VEVENT\nDTSTAMP:20110118T211523Z\nUID:uid-1234-uid-4321\nDTSTART;TZID=US-Mountain:20110120T170" ++
    c!"000\nDTEND;TZID=US-Mountain:20110120T184500\nCLASS:PRIVATE\nGEO:37.386013;-122.0829322\nORGANIZER:mailto" ++
    c!":jmera@jmera.human\nPRIORITY:2\nSUMMARY:This is a very short summary.\nRDATE;TZID=US-Mountain:20110121T" ++
    c!"170000,20110122T170000\nEND:VEVENT\n") =
    some ([], []) := by decide +kernel

/-- /repo/fixtures/icalendar-rb/two_time_events.ics. -/
example : outline (c!"BEGIN:VCALENDAR\r\nMETHOD:PUBLISH\r\nVERSION:2.0\r\nX-WR-CALNAME:TMP\r\nPRODID:-//Apple Inc.//Mac OS X 10.9." ++
    c!"4//EN\r\nX-APPLE-CALENDAR-COLOR:#0E61B9\r\nX-WR-TIMEZONE:America/New_York\r\nCALSCALE:GREGORIAN\r\nBEGIN:VTI" ++
    c!"MEZONE\r\nTZID:America/New_York\r\nBEGIN:DAYLIGHT\r\nTZOFFSETFROM:-0500\r\nRRULE:FREQ=YEARLY;BYMONTH=3;BYDAY" ++
    c!"=2SU\r\nDTSTART:20070311T020000\r\nTZNAME:EDT\r\nTZOFFSETTO:-0400\r\nEND:DAYLIGHT\r\nBEGIN:STANDARD\r\nTZOFFSETF" ++
    c!"ROM:-0400\r\nRRULE:FREQ=YEARLY;BYMONTH=11;BYDAY=1SU\r\nDTSTART:20071104T020000\r\nTZNAME:EST\r\nTZOFFSETTO:-" ++
    c!"0500\r\nEND:STANDARD\r\nEND:VTIMEZONE\r\nBEGIN:VEVENT\r\nSTATUS:CONFIRMED\r\nCREATED:20140731T162556Z\r\nUID:7C4" ++
    c!"A5440-ABA5-4B32-A69D-AFD243B39FE1\r\nDTEND;TZID=America/New_York:20140714T100000\r\nTRANSP:OPAQUE\r\nSUMMA" ++
    c!"RY:9am\r\nLAST-MODIFIED:20140731T162556Z\r\nDTSTAMP:20140731T164042Z\r\nDTSTART;TZID=America/New_York:2014" ++
    c!"0714T090000\r\nLOCATION:\r\nSEQUENCE:13\r\nBEGIN:VALARM\r\nX-WR-ALARMUID:6F54CD66-F2A9-491D-8892-7E3209F6A2E" ++
    c!"4\r\nUID:6F54CD66-F2A9-491D-8892-7E3209F6A2E4\r\nTRIGGER;VALUE=DATE-TIME:19760401T005545Z\r\nACTION:NONE\r\n" ++
    c!"END:VALARM\r\nEND:VEVENT\r\nBEGIN:VEVENT\r\nSTATUS:CONFIRMED\r\nCREATED:20140731T162556Z\r\nUID:A50FA12F-BCA9-" ++
    c!"4822-A61D-E86EB7440A16\r\nDTEND;TZID=America/New_York:20140714T095900\r\nTRANSP:OPAQUE\r\nSUMMARY:9:01-9:5" ++
    c!"9\r\nLAST-MODIFIED:20140731T162556Z\r\nDTSTAMP:20140731T164405Z\r\nDTSTART;TZID=America/New_York:20140714T" ++
    c!"090100\r\nLOCATION:\r\nSEQUENCE:16\r\nBEGIN:VALARM\r\nX-WR-ALARMUID:295F2CF7-1C48-4E76-A8FC-718A1EBEDB76\r\nUI" ++
    c!"D:295F2CF7-1C48-4E76-A8FC-718A1EBEDB76\r\nTRIGGER;VALUE=DATE-TIME:19760401T005545Z\r\nACTION:NONE\r\nEND:V" ++
    c!"ALARM\r\nEND:VEVENT\r\nEND:VCALENDAR\r\n") =
    some ([c!"METHOD", c!"VERSION", c!"X-WR-CALNAME", c!"PRODID", c!"X-APPLE-CALENDAR-COLOR", c!"X-WR-TIMEZONE", c!"CALSCALE"], [(c!"VTIMEZONE", 1, [c!"DAYLIGHT", c!"STANDARD"]), (c!"VEVENT", 11, [c!"VALARM"]), (c!"VEVENT", 11, [c!"VALARM"])]) := by decide +kernel

/-- /repo/fixtures/icalendar-rb/tzid_search.ics. -/
example : outline (c!"BEGIN:VCALENDAR\nMETHOD:PUBLISH\nVERSION:2.0\nCALSCALE:GREGORIAN\nBEGIN:VTIMEZONE\nTZID:(GMT-05:00) Easte" ++
    c!"rn Time (US & Canada)\nBEGIN:STANDARD\nDTSTART:16011104T010000\nRRULE:FREQ=YEARLY;BYDAY=1SU;BYMONTH=11\n" ++
    c!"TZOFFSETFROM:-0400\nTZOFFSETTO:-0500\nEND:STANDARD\nBEGIN:DAYLIGHT\nDTSTART:16010311T030000\nRRULE:FREQ=Y" ++
    c!"EARLY;BYDAY=2SU;BYMONTH=3\nTZOFFSETFROM:-0500\nTZOFFSETTO:-0400\nEND:DAYLIGHT\nEND:VTIMEZONE\nBEGIN:VEVEN" ++
    c!"T\nCREATED:20120104T225934Z\nUID:23D50AF6-23D4-4CB5-85C6-4826F3F19999\nDTEND;TZID=\"(GMT-05:00) Eastern " ++
    c!"Time (US & Canada)\":20180104T130000\nRRULE:FREQ=WEEKLY;INTERVAL=1\nTRANSP:OPAQUE\nSUMMARY:Recurring on " ++
    c!"Wed\nDTSTART;TZID=\"(GMT-05:00) Eastern Time (US & Canada)\":20180104T100000\nDTSTAMP:20120104T231637Z\nS" ++
    c!"EQUENCE:6\nEND:VEVENT\nEND:VCALENDAR\n") =
    some ([c!"METHOD", c!"VERSION", c!"CALSCALE"], [(c!"VTIMEZONE", 1, [c!"STANDARD", c!"DAYLIGHT"]), (c!"VEVENT", 9, [])]) := by decide +kernel

end Ical.Fixtures
