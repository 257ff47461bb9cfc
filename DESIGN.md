# Formal model of icalendar-rs: design

The code under study is `/repo` (crate `icalendar` 0.16.11, Rust). It cannot be built or run here; the model
in `lean/Verif` is a hand transcription, each definition citing the file and lines it models.

## Layout

| Directory | Contents |
|---|---|
| `lean/Verif/Model/` | executable transcription of the Rust code (total, computable functions) |
| `lean/Verif/Spec/`  | small independent specifications used to *state* properties |
| `lean/Verif/Proofs/`| helper lemmas |
| `lean/Verif/Props/` | the property theorems (one file per group of properties), each beside an `example` |
| `lean/Verif/Examples/` | concrete calendars, texts and calls; every theorem with hypotheses that has no `example` in its own file is applied to them here, so the hypotheses are met together |
| `lean/Verif/Sanity/`| the crate's own unit tests and fixtures, and documented examples of nom, the standard library and chrono, evaluated on the model (checks of the transcription, not proofs of properties) |
| `seeded/LOG.jsonl`  | wrong programs: one edit of a model definition per line and the theorems that stopped checking |

In `seeded/LOG.jsonl` the entries `M…` are wrong programs written by hand; the entries `A…`, `B…` and `S…` are edits made one
by one to definitions of the model by a script (literals, numbers, comparisons, conditions, dropped parts, swapped branches).
`proofs_that_stopped_checking` are the proofs at which the build failed. `theorems_failed` are the theorems of
`MANIFEST.json` that rest on them. Edits that nothing noticed at first have a note saying what was added.

## Trusted base

* Lean 4.33.0 kernel; axioms at most `propext`, `Classical.choice`, `Quot.sound` (`#print axioms` of every
  listed theorem is in `Verif/Axioms.lean`). No own axioms, no `sorry`, no `native_decide`/`bv_decide`.
* The fidelity of the transcription (reading, not testing).
* Library behaviour that was transcribed from knowledge of the crates rather than from `/repo`:
  nom 7 combinators (`Model/Nom.lean`), its `VerboseError` and `convert_error` (`Model/Errors.lean`) and `Error` (`Model/SimpleErrors.lean`), chrono 0.4 `format`/`parse_from_str` for the three formats used and
  `Duration` display as in the current 0.4 releases, `P0D` and `PT<seconds>S` (`Model/Chrono.lean`), Rust `str` methods
  (`replace`, `split`, `parse::<u32>`), `BTreeMap` (ordered by UTF-8 bytes, equivalently by code points), and the code
  that serde derives for structs (fields by name or in order, unknown fields skipped, duplicates rejected),
  and JSON text as serde_json writes and reads it (`Model/JsonText.lean`).
* nom's `tag_no_case` compares Unicode lower case; the model folds ASCII letters. For the tags used (`BEGIN:`, `END:`)
  this is the same: the only non-ASCII characters whose lower case is an ASCII letter are the Kelvin sign (k) and the
  dotted capital I, whose lower case has two code points.
* `char::is_whitespace` is modelled by its exact Unicode table. `char::is_alphanumeric` and
  `char::is_lowercase` are exact on ASCII and a parameter (`class Uni`) outside ASCII: every theorem
  holds for every choice of the non-ASCII tables.
* `iso8601::duration` and its conversion to a chrono duration are a parameter (`class Iso8601`) with three laws, trusted
  for the crate: `P0D` is read as zero, `PT<n>S` as `n` seconds for `n < 2^32`, and a text starting with a minus sign
  is not read. The class is used by the getters of triggers and of the refresh interval (C54, C55, C61).
* What counts as a step of reading (C84) or as a level of recursion (C85) is stated in `Model/Work.lean`: characters looked
  at by the primitive parsers, plus one per primitive and per call of `component`. Building results and error messages,
  and unfolding, are not counted.
* What counts as a step of writing (C86, C132) is stated in `Model/FoldWork.lean` and `Model/WriteWork.lean`: characters counted by `chars().nth`, and
  positions tried for a character boundary.
* The time zone database is a parameter (`TzDb`); `TzNames` (C65) assumes that the name of each zone parses to it.
* Clock, UUID generator and hash-map iteration order are parameters (`World`): every theorem holds for all
  clock values, UUIDs and iteration orders.

## Modelling conventions

* `String`/`&str` is `List Char` (`Str`); byte offsets are sums of `Char.utf8Size`.
* A panic or a non-terminating loop is an explicit value (`Except Crash`). `fold_line`, the one loop that
  may diverge, is a small-step machine `foldStep`; divergence is "no number of steps finishes".
* `nom` parsers are functions `Str → Res α` with `Res = ok rest a | error | failure`. The
  payloads of errors (`VerboseError`) and the text made of them (`convert_error`) are in `Model/Errors.lean`, in which
  each parser is paired with the payload of its errors.
* `&mut self` methods return the new value. `HashMap<String, Parameter>` and `BTreeMap` are canonical sorted
  association lists; iteration of a `HashMap` goes through an arbitrary permutation supplied by the world.
* Specifications do not use tables or helpers of the model: which properties are TEXT (`IsTextFor`), which may repeat
  (`repeatable`), how characters are escaped (`escaped`, `readText`), what a line means (`LineMeans`) and what the text
  of a calendar is (`CalendarText`) are written down again in `Spec/`. Shared with the model are the data types
  (`Property`, `Other`, `Calendar`, ...), character tests, and the printing of dates and numbers, whose exact form is
  the subject of C48.
* `World.Ok` says what is assumed of the environment of serialization: hash maps are iterated in some order of their
  entries, clock readings are valid times, UUIDs consist of hexadecimal digits and dashes.
* `ParseString` (Cow) is its text. Errors are modelled for the readers (C90, C91, C120, C122), elsewhere only
  `Ok`/`Err`.
* Writers (`Model/Sink.lean`) are arbitrary state machines that accept or refuse each piece. How `write!` cuts its output into pieces is left to the standard library: no theorem depends on it.
* JSON (`Model/Json.lean`) is the value level: `serde_json::Value` and the derives. JSON text (`Model/JsonText.lean`) is
  what `serde_json::to_string`, `to_string_pretty` and `from_str` are documented to do, with the recursion limit of 128.
* Not modelled: `Debug`, `src/repeats.rs` and `src/period.rs` (dead
  code, not in `lib.rs`), memory exhaustion, stack overflow, and the contents of error messages other than those of the readers.

## Plan per property

* **C01** Model `fold_line` as a step machine and `unfold` as the four splits. Prove every finished run outputs a `Folding` (inductive spec: pieces joined by CRLF SPACE) and that `unfold` of a folding of a marker-free line is the line.
* **C02** `_partial`: all physical lines <= 75 octets except the last, which is <= 76. Negation: a concrete 150-octet line gives a 76-octet physical line.
* **C03** `_partial`: finishes for ASCII lines, for lines without whitespace and for lines with few whitespace characters in any 74 consecutive ones (fewer than 74/k if no character has more than k octets). Negation: a concrete line on which no number of steps finishes, and one that panics. For every line, `Spec/FoldExact.lean` describes the search for a cut on the text alone; the line finishes, loops or panics according to where these searches end.
* **C04** Invariant of the step machine: emitted text is a folding of the consumed prefix, cut positions are strictly increasing character boundaries.
* **C05** Direct from the machine's guard: <= 75 octets is the identity, > 75 octets has at least one marker.
* **C06** Independent spec `unfoldSpec` (single left-to-right scan). Prove `unfold = unfoldSpec` for all strings via lemmas on `split`.
* **C07** Inductive spec of arbitrary foldings with arbitrary markers; induction on the pieces.
* **C08** `escape` as the four replaces, `unescape` as the six replaces. Prove the exact characterisation `unescape (escape t) = t <-> no backslash before n/N/colon`; the unconditional claim is false (witness).
* **C09** Induction on the string with a spec of 'unescaped occurrence'.
* **C10** `_partial` on the class of inputs where sequential and one-pass readings agree; negation witness.
* **C11** Equality of both decision procedures for all names, maps and permutations.
* **C12** Compose C01, C08, C11, C14 with a proof that the parser inverts the printer on a line followed by CRLF.
* **C13** Quantify C12 over all permutations of the parameter map.
* **C14** Exact characterisation for quotable values, negation for values with quote and colon.
* **C15** From C09 plus fold/unfold: the unfolded text is line ++ CRLF with no other LF.
* **C16** Fuelled recursion proved fuel-independent; recursion equations hold unconditionally for enough fuel, so the result is never an artefact of fuel.
* **C17** False (`many0(all_consuming(..))` accepts at most one root): prove that two or more roots give an empty list; `_partial` for a single root.
* **C18** False for a truncated flat root (accepted as an empty calendar): witness theorem; `_partial`: exactly which cuts are noticed (inside a nested component or the END line), which are read as an empty calendar, and which lose nothing; for folded files too, where a cut may leave a part of a fold marker.
* **C19** Induction over the body: first END line with a wrong name makes the parser return failure.
* **C20** Same induction, ending in a property line whose name starts with BEGIN/END.
* **C21** Invariant by induction over the parser's recursion.
* **C22** `_partial`: for trees with print-safe values; negation: reserialization does not re-escape, so it is lossy for a tree the parser returns. Exact (`reprint_iff_partial`): by C71 the printed text stands for the tree; reading takes away quotes, blanks and backslashes and adds nothing, so counting characters shows that there are none to take away. Exact for all trees (`reprint_exactly`, `Spec/Reprinted.lean`): counting letters shows that no lines were added and all keywords were read in capitals as printed; then every line is read as the line that was printed.
* **C23** Induction over the component tree; the printed form is a function of the line terminator.
* **C24** Spec: documents printed with arbitrary casing functions; parse result equal.
* **C25** Main theorem; induction over the component tree using C12.
* **C26** Corollary of the general form of C25 with a function that adds the missing properties.
* **C27** Corollary of C25: the reparsed calendar is well-formed and complete; induction on the number of iterations.
* **C28** Count lines by name in the list of unfolded lines of the output.
* **C29** A stack machine (spec) accepts the unfolded lines of the output.
* **C30** Case analysis on names.
* **C31** `_partial`: names in the code's table keep all values; negation for RELATED-TO and REQUEST-STATUS; all are kept exactly if the name is in the table or occurs once.
* **C32** Case analysis of `read_calendar` against the list of roots.
* **C33** Refinement of histories of calls to a function `key -> Option value`.
* **C34** Refinement of histories to `filter by key`.
* **C35** Sortedness invariant of the map plus the shape of the output.
* **C36** Corollaries of C33, stated for histories.
* **C37** Number printing/parsing lemmas.
* **C38** Number printing/parsing lemmas for all u32/u8.
* **C39** False (no clamping): negation witness; `_partial` for set values <= 100, and only for those.
* **C40** Case analysis over variants plus exclusion of all other strings.
* **C41** Direct; stated for arbitrary histories.
* **C42** Refinement to lists over operation histories.
* **C43** Refinement over operation histories.
* **C44** False: witness; `_partial` through X-WR-TIMEZONE, and exactly what is returned.
* **C45** Direct.
* **C46** chrono formatting/parsing model; round trip for years 0..9999; negation outside.
* **C47** Same with truncation of sub-second part.
* **C48** Length/digit lemmas and injectivity.
* **C49** Model `try_from`, compose with C12.
* **C50** False: witness; `_partial` for the key the code uses; the key of the RFC never has an effect.
* **C51** Case analysis plus digits lemma.
* **C52** Parametric time zone database.
* **C53** Invariant over call histories.
* **C54** `_partial` for non-negative durations and non-zoned date-times; negations; exactly what is read back.
* **C55** Duration display/parse model.
* **C56** Direct.
* **C57** Spec reader `readText` (one left-to-right pass); `readText (escapeText t) = t`.
* **C58** Case analysis of `Calendar::from(Vec<Component>)`; `_partial`: components are kept; witness for lost properties.
* **C59** Invariant "good component" over call histories, from the arguments of each typed setter; then C26.
* **C60** C03 lifted to whole calendars (`Foldable`: ASCII, or few whitespace characters in any window); witnesses. Exact form: a calendar is written in every world if and only if all content lines of all its properties can be folded; a world is constructed for each order of the parameters.
* **C61** Getters depend on lookups only; lookups survive by C26.
* **C62** The text does not depend on the world when nothing is generated and no map has two entries; parse results agree by C25.
* **C63** Normal form of a call history: last set per key, appended per key, sub-components; permutations keep it.
* **C64** Refinement of histories of `add_parameter` to a map; written line by C69.
* **C65** `TzDb` with candidates of a local time; case analysis of the candidates.
* **C66** The reader on the abstract documents of `Spec/Document` composed with C07; conversion against `Contains`.
* **C67** As C29, collecting the BEGIN and END lines; `_partial` without line feeds in values written verbatim; witnesses.
* **C68** The reader on documents with blank lines (`Spaced`), for both line endings and any folding.
* **C69** `fmt_write` of a property against `ContentLine`, using the folding invariant.
* **C70** Induction over the component tree against `CalendarText`.
* **C71** A grammar (`Spec/Grammar.lean`) of the texts that stand for a parsed tree, with the text that follows as a
  parameter, so that longest matches can be expressed; every parser combinator returns only what the text it consumed
  stands for (`Reads`), by induction on the recursion budget.
* **C72** From C71 and the case analysis of `components`; false for the code, in general.
* **C73** From C31; false for names that occur twice.
* **C74** The scanners of chrono on the texts of `Spec/DateText.lean`; chrono's days against the Gregorian calendar.
* **C75** Case analysis of the two readers; false for the code when the text and the parameters disagree. The exact
  condition (`Spec/DateReaders.lean`) compares the last VALUE, the first and the last TZID with the kind of the text.
* **C76** The tables of the RFC written down again, compared for all names.
* **C77** False for the code; what remains is that such lines are kept verbatim. The exact extent compares the meanings of two documents with the same shape (`Spec/NameCase.lean`).
* **C78** A derived `visit_map` splits into independent fields (`fieldOf`); equivalence with `Spec/Json.lean` by induction
  on the size of the JSON value, from which the round trip follows.
* **C79** The loop of `fold_line` against the greedy cuts of `Spec/Cuts.lean`, which are unique.
* **C80** The proof of C68 with a line break chosen per line; false for the code when a CRLF follows an LF line. The
  converse by induction on the document: the first such line is read with another value, so the elements differ.
* **C81** From the content line theorem; the failures by following the parser past the closing quote. Exactly which lines are read as what they are: from the exact reading of C108 (`property_read_iff`), by taking the parameters apart (`Props/Written.lean`).
* **C82** A weight per parser result, bounded by what the parser consumed; combinator by combinator.
* **C83** Unescaping as one pass over runs of backslashes; the round trip of C25 without its hypothesis on texts.
* **C84, C85** Every parser of the model paired with the cost of running it (`Model/Work.lean`); upper bounds by paying for each element with the characters it consumes, lower bounds for explicit families of texts. The depth for well-formed documents is computed exactly, element by element (`Proofs/WorkDepth.lean`).
* **C86** The loop of `fold_line` with its cost (`Model/FoldWork.lean`); lower bound by summing the positions of the cuts.
* **C87** The measured parsers on the documents of `Spec/Document.lean`, by the same induction as for what they return.
* **C88** From the proofs of C25 and C26 with a text that follows, and C68 for the blank line that `print` adds.
* **C89** By cases on the VALUE parameter, with the date texts of C74.
* **C90/C91** `Proofs/Errors.lean`: a failure of each parser determines its payload; induction over the recursion budget shows that every payload is a `Blame`, and induction over open components gives the exact payload for a given wrong line.
* **C92** Reading back shows that calendars with the same text agree except in TEXT values; walking along the text then gives the values, since escaping is injective.
* **C93** Corollary of C17 at the level of calendars.
* **C94** By C71 every part of what is read stands in the text, so it is made of name characters, has no line break and no fold marker; hence the calendar is well-formed and C83 applies. Exactly: the proof of C119 (counting semicolons, then reading line by line) is repeated with generated stamps and reread TEXT values allowed for (`Proofs/Restamped`, `Props/RewriteExact`).
* **C95** The grammar of RFC 5545 for names, dates, integers, durations and triggers is in Spec/Rfc; each setter is compared with it in both directions.
* **C96** Recursion over the tree; folding is described by pieces joined with CRLF and a space, letter case by a table of pairs (`lowerAscii_table`).
* **C97** UUIDs are drawn along the path of the component in the tree; the gained UIDs are those at distinct paths.
* **C98** The same recursion as C97, with the names of the components that gain a property.
* **C99** C94 and C59 together: every edit keeps the calendar well-formed.
* **C100** escaping leaves no separator, so the written list has one element; iff by counting pieces.
* **C101** texts of fixed width: lexicographic order of concatenations of equal length.
* **C102** C101 with the parameters; `all_day` refuted for all dates.
* **C103** the converted maps are determined per key by the lines that count; extensionality of sorted maps.
* **C104** a set changes a sorted map in one place; writing is concatenation.
* **C105** the meaning of a document is compositional: positions in the list of components.
* **C106** digits as a fold; the reader inverts it.
* **C107** `_partial`: the scanners, item by item, against a declarative description of greedy numbers. Negation: texts with blanks, missing digits and signs.
* **C108** `Spec/Acceptance.lean` describes the texts that are read, those that are not closed (`Stuck`) and those in which reading fails (`Broken`). Each kind leads to its result, by induction on the length; every text is of one kind; hence the equivalences.
* **C109** the writing functions again, over an arbitrary writer (`Model/Sink.lean`): `Streams` composes along `?`; everything else follows from the list of pieces.
* **C110** `Spec/Strict.lean` is the grammar of RFC 5545, section 3.1. Each item ends at a character it cannot contain, hence uniqueness; the written text (C69, C70) is compared with it line by line.
* **C111** trailing zeros by induction on the number of figures; uniqueness by cutting at the first character that is no digit.
* **C112** `_partial`: the lines of C110's grammar, grouped into components, are turned into a document of C66; if a name starts with BEGIN or END, the part before the first such line is a sequence of open components (C20). `rfc_document_exact` covers lists of values too: the relational description of what is read (`calendar_read_iff`) is compared, element by element, with the document as it is written.
* **C113**: the property bound of C82 summed over the parts; conversion to maps only drops or regroups properties; each part that was read has taken enough text (the weights of C82).
* **C114**: C110 with the effects of calls (C31–C34, C42): each call is looked up in a table of what it must be given; which properties survive a history follows from the map laws.
* **C115**: the written line is cut at the first fold (C03); the cut is inside the name, the parameters or the value, and the shapes of C62 tell what is read from each.
* **C116**: the parser on the opened components (C61/C62), then on a line that starts with a blank: either the blank is skipped as white space before a property, or the property parser fails.
* **C117**: references to zones are read off the parameter maps; what setters leave, multi properties and added components (C34) give the references of a built component, `CalStamped` (C26) those of a calendar that was read back.
* **C118**: from the exact grammar of the reader (`property_read_iff`): reading adds no semicolon, so no parameter was read twice; then it adds no line feed, so unfolding took none away; then the text is the content line and is compared with it piece by piece.
* **C119**: every calendar that was read has proper names and storage (from the soundness of the reader). If it is the one that was written, the semicolons of the text are those of its parameters and values, so nothing that was read with parameters was dropped; hence the first line is read as the first property, with the parameters it has, and so on for every line and component. Conversely the exact grammar of C108 reads every such text as the calendar. For clean calendars the condition is that of C83.
* **C120**: the specification of texts that fail (C108) is extended by what is said about each way to fail; elements read before do not matter for the error payload (induction over the body), so the payload is that of the failing element.
* **C121**: the specification of parameter texts (Spec.ParamIs) with what may follow is complete for texts that start with a semicolon, and the reader is a function, so it is exact; the written form is compared with it case by case.
* **C67**, exactly: the BEGIN and END lines of a text of whole lines are those of its parts, so a calendar has its own and those its properties bring; comparing lengths gives both directions, one world per order of parameters.
* **C122**: a second transcription of the parsers with `nom::error::Error` (`Model/SimpleErrors.lean`); a relation between the two transcriptions that every combinator keeps (`Proofs/SimpleErrors.lean`), then C120.
* **C123**: `enum_texts` (C40), the names of one enumeration differ in letters and not only in their case; C74, C89 for the consequences.
* **C124**: how unfolding acts on a text put together from three (a space after the last line break is a fold marker); C68 for the blank lines, C72 for the rest.
* **C125**: `EndsHere`, an inductive description of parameters that end in a line; one direction by reading the line with C108, the other by continuing the line so that a colon and either of two letters come next.
* **C126**: `Refolds`, a line feed, markers and a blank in a row; by induction along the one-pass reading of markers. Written calendars: the unfolded text is a document without markers.
* **C127**: the grammar of RFC 8259 as an inductive relation (`Spec/JsonText.lean`); the reader gives the value of every such text by induction on it, both writers write such texts, and depth of the value against `Shallow`.
* **C128**: `calendar_reread` (C83) at the keys UID and LOCATION.
* **C129**: the lines of a written component counted by name (as in C28, for every name), and `component_map`, `multi_keeps_all` (C33, C34) for what a history of calls leaves.
* **C130**: induction over two documents with the same text. Names end where no name character follows, so the first word of both texts is the same; it says whether a line, a component or the end of one follows. The file version adds C66 and that unfolding undoes any folding.
* **C131**: the converted properties of a component as a function of its lines, name by name (from the proof of C103); induction over the place of the edit.
* **C132**: the bound of C86 for each property, summed over the parts; the octets of a property written are those of its line and its folds; C113 bounds what is written for a text that was read.
* **C133**: C68 (what a file contains) combined with what each getter makes of its property (C40, C74, C106).
* **C134**: well-formedness is a condition on each property and component alone, so C94, C25 and C68 apply to any selection of them.
* **C135**: the entries of a message are at most proportional to the text (each needs a BEGIN line), and two entries of the same kind quote different lines, so their sum is.
* **C136**: `Becomes` is the closure of writing under replacing a file by one that says the same (Spec/Passing.lean) and rereading; what is read is invariant.
* **C137**: `toLf` and `toCrlf` (Spec/Breaks.lean) commute with unfolding as long as the unfolded text has no lone CR, so converted files present the same document.
* **C138**: octets below 128 occur only as ASCII characters and the first octet says how many follow, so cutting and unfolding octets commute with encoding.
* **C139**: lossy decoding of folded octets is the octets of a folded text in which the cut characters are U+FFFD, so C138 applies to it; the grammar, unescaping and the maps are insensitive to replacing characters that are not in ASCII. Trusted: `String::from_utf8_lossy` substitutes maximal subparts as specified.
* **C140**: the relations of C139 between documents and calendars are stated once for any relation of values (Spec/SameBut.lean) and proved from a short list of conditions (`Replaces` in Props/SameBut.lean); C139 and C140 are two instances.
* **C141**: stripping is defined on whole files (`stripped` in Spec/Stripped.lean); `SafeEnds` says which blanks must not stand at the end of a line. The relation with values that lost blanks is a third instance of `Replaces`.
* **C142**: merging is an inductive relation between four documents (`MergedItems` in Spec/ThreeWay.lean: the original, the two changed ones and the outcome), with `owner` telling who changes the lines of a name within one component. `MergedComps` and `MergedCalendar` say the same of what is read. The merge algorithm itself, which finds the stretches, is not modelled: any choice of stretches is covered.
* **C143**: searching is `<:+:` (the word is a contiguous part of the text). `search_lines` pairs every line of the unfolded file with the property it belongs to; `calendarProps` lists the properties of a calendar at all depths in the order of writing.
* **C144**: `withoutLines k` removes the lines of the file (ended by line feeds) that start with `k` and a colon or a semicolon. `CalendarWithout k c d` says that `d` is `c` without the properties named `k`, at any depth. `NotContinued` says that no removed line is followed by a line that starts with a blank.
* **C145**: `brackets s` lists the lines of `s` (cut at line feeds) that start with `BEGIN:` or `END:` in any letter case, with what follows in the line. `calendarBrackets c` lists the beginnings and ends of the components of `c` by recursion, without any text.
* **C146**: `linesOfName k s` lists the lines of `s` (cut at line feeds, not unfolded) that start with `k` and a colon or semicolon. The theorems pair them with the properties named `k` in `calendarProps c` (all depths, order of writing).
* **C147**: `selectBlocks keep s` is the copying program: it counts the components that are open and holds the lines of a component of the calendar back until its end. The theorems pair the components of the calendar with the blocks of the file.
* **C148**: uses `selectBlocks` of C147 on the unfolded text. The blocks occur in the text in this order (`Sublist`), and each is read alone as its component. `BracketsWhole` says that the lines of components can be recognised without unfolding; then copying and unfolding can be exchanged (`selected_unfold`).
* **C149**: `takeOut line s` and `takeOnly line s` are `selectBlocks` of C147, deciding by whether the line is one of the block. `Carries k v x`: the component or one in it has a property named `k` with the raw value `v` and without parameters.
* **C150**: `headOf`, `blocksOf` and `recombine` are the program that takes files apart and puts them together. `InAFile` pairs a component with its text in some written file; the files can have been written in different worlds.
* **C151**: `addLine` is the program that adds lines, `CalendarWithAdded` says what is added to the calendar. Maps of properties are compared by looking up keys.
* **C152**: `replaceLines` is the program that replaces lines, `CalendarWithReplaced` says what is replaced in the calendar. The condition `NotContinued` is that of C144.
* **C153**: `renameLines` is the program that renames lines, `CalendarWithRenamed` says what is renamed in the calendar, `SameUse` when two names are used in the same way. `Findable` is that of C146.
* **C154**: `withoutFolded` and `replaceFolded` are the programs that remove and replace lines together with their continuations. `NotCut` is that of C153, `Findable` that of C146.
* **C155**: `withoutBlocks` is the program that removes ranges of lines, `CalendarWithoutComps` says what is removed from the calendar. `Findable` is that of C146.
* **C156**: `retitleBlocks` is the program that replaces the lines, `CalendarRetitled` says what is renamed in the calendar. `BlocksWhole` is that of C155, `Findable` that of C146.
