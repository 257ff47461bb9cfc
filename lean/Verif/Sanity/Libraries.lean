import Verif.Model.Nom
import Verif.Model.Chrono
import Verif.Model.Map

/-!
Examples from the documentation and the tests of the libraries the crate uses, as the model computes them: checks of
what DESIGN.md says is trusted. They are tests, no property rests on them.
-/

namespace Ical.Sanity.Libraries

open Nom

/-- the letters of the examples -/
def alpha (c : Char) : Bool := 'a'.toNat ≤ c.toNat && c.toNat ≤ 'z'.toNat

/-- `alpha1` and `digit1` of the examples -/
def alpha1 : P Str := takeTill1 (fun c => !alpha c)
def digit1 : P Str := takeTill1 (fun c => (digitVal c).isNone)

/-! ### nom: `bytes::complete` -/

example : tag c!"Hello" c!"Hello, World!" = .ok c!", World!" c!"Hello" ∧ tag c!"Hello" c!"Something" = .error ∧
    tag c!"Hello" c!"" = .error := by decide +kernel

example : tagNoCase c!"hello" c!"Hello, World!" = .ok c!", World!" c!"Hello" ∧
    tagNoCase c!"hello" c!"hello, World!" = .ok c!", World!" c!"hello" ∧
    tagNoCase c!"hello" c!"HeLlO, World!" = .ok c!", World!" c!"HeLlO" ∧
    tagNoCase c!"hello" c!"Something" = .error ∧ tagNoCase c!"hello" c!"" = .error := by decide +kernel

example : isNot '"' c!"Hello\" World" = .ok c!"\" World" c!"Hello" ∧ isNot '"' c!"Hello" = .ok c!"" c!"Hello" ∧
    isNot '"' c!"\"" = .error ∧ isNot '"' c!"" = .error := by decide +kernel

example : takeWhile alpha c!"latin123" = .ok c!"123" c!"latin" ∧ takeWhile alpha c!"12345" = .ok c!"12345" c!"" ∧
    takeWhile alpha c!"latin" = .ok c!"" c!"latin" ∧ takeWhile alpha c!"" = .ok c!"" c!"" := by decide +kernel

example : takeTill1 (· == ':') c!"latin:123" = .ok c!":123" c!"latin" ∧
    takeTill1 (· == ':') c!":empty matched" = .error ∧ takeTill1 (· == ':') c!"12345" = .ok c!"" c!"12345" ∧
    takeTill1 (· == ':') c!"" = .error := by decide +kernel

example : takeUntil c!"eof" c!"hello, worldeof" = .ok c!"eof" c!"hello, world" ∧
    takeUntil c!"eof" c!"hello, world" = .error ∧ takeUntil c!"eof" c!"" = .error ∧
    takeUntil c!"eof" c!"1eof2eof" = .ok c!"eof2eof" c!"1" := by decide +kernel

/-! ### nom: `character::complete` -/

example : lineEnding c!"\r\nc" = .ok c!"c" c!"\r\n" ∧ lineEnding c!"\nc" = .ok c!"c" c!"\n" ∧
    lineEnding c!"ab\r\nc" = .error ∧ lineEnding c!"" = .error ∧ lineEnding c!"\r" = .error := by decide +kernel

example : multispace0 c!" \t\n\r21c" = .ok c!"21c" c!" \t\n\r" ∧ multispace0 c!"Z21c" = .ok c!"Z21c" c!"" ∧
    multispace0 c!"" = .ok c!"" c!"" := by decide +kernel

example : space0 c!" \t21c" = .ok c!"21c" c!" \t" ∧ space0 c!"Z21c" = .ok c!"Z21c" c!"" ∧
    space0 c!"" = .ok c!"" c!"" := by decide +kernel

/-! ### nom: `branch`, `combinator` -/

example : alt alpha1 digit1 c!"abc" = .ok c!"" c!"abc" ∧ alt alpha1 digit1 c!"123456" = .ok c!"" c!"123456" ∧
    alt alpha1 digit1 c!" " = .error := by decide +kernel

example : opt alpha1 c!"abcd;" = .ok c!";" (some c!"abcd") ∧ opt alpha1 c!"123;" = .ok c!"123;" none := by
  decide +kernel

example : map List.length digit1 c!"123456" = .ok c!"" 6 ∧ map List.length digit1 c!"abc" = .error := by decide +kernel

example : allConsuming alpha1 c!"abcd" = .ok c!"" c!"abcd" ∧ allConsuming alpha1 c!"abcd;" = .error ∧
    allConsuming alpha1 c!"123abcd;" = .error := by decide +kernel

example : eof c!"abc" = .error ∧ eof c!"" = .ok c!"" c!"" := by decide +kernel

/-- `one_of("+-")`, `rest` -/
def sign : P Str := alt (tag c!"+") (tag c!"-")
def rest : P Str := takeWhile (fun _ => true)

-- the example of `cut`: without it the second branch takes over, with it the input is rejected for good
example : alt (preceded sign digit1) rest c!"+10 ab" = .ok c!" ab" c!"10" ∧
    alt (preceded sign digit1) rest c!"ab" = .ok c!"" c!"ab" ∧ alt (preceded sign digit1) rest c!"+" = .ok c!"" c!"+" ∧
    alt (preceded sign (cut digit1)) rest c!"+10 ab" = .ok c!" ab" c!"10" ∧
    alt (preceded sign (cut digit1)) rest c!"ab" = .ok c!"" c!"ab" ∧
    alt (preceded sign (cut digit1)) rest c!"+" = .failure := by decide +kernel

/-! ### nom: `sequence`, `multi` -/

example : pair (tag c!"abc") (tag c!"efg") c!"abcefg" = .ok c!"" (c!"abc", c!"efg") ∧
    pair (tag c!"abc") (tag c!"efg") c!"abcefghij" = .ok c!"hij" (c!"abc", c!"efg") ∧
    pair (tag c!"abc") (tag c!"efg") c!"" = .error ∧ pair (tag c!"abc") (tag c!"efg") c!"123" = .error := by
  decide +kernel

example : preceded (tag c!"abc") (tag c!"efg") c!"abcefg" = .ok c!"" c!"efg" ∧
    preceded (tag c!"abc") (tag c!"efg") c!"abcefghij" = .ok c!"hij" c!"efg" ∧
    preceded (tag c!"abc") (tag c!"efg") c!"" = .error ∧ preceded (tag c!"abc") (tag c!"efg") c!"123" = .error := by
  decide +kernel

example : separatedPair (tag c!"abc") (tag c!"|") (tag c!"efg") c!"abc|efg" = .ok c!"" (c!"abc", c!"efg") ∧
    separatedPair (tag c!"abc") (tag c!"|") (tag c!"efg") c!"abc|efghij" = .ok c!"hij" (c!"abc", c!"efg") ∧
    separatedPair (tag c!"abc") (tag c!"|") (tag c!"efg") c!"" = .error ∧
    separatedPair (tag c!"abc") (tag c!"|") (tag c!"efg") c!"123" = .error := by decide +kernel

example : delimited (tag c!"(") (tag c!"abc") (tag c!")") c!"(abc)" = .ok c!"" c!"abc" ∧
    delimited (tag c!"(") (tag c!"abc") (tag c!")") c!"(abc)def" = .ok c!"def" c!"abc" ∧
    delimited (tag c!"(") (tag c!"abc") (tag c!")") c!"" = .error ∧
    delimited (tag c!"(") (tag c!"abc") (tag c!")") c!"123" = .error := by decide +kernel

example : many0 (tag c!"abc") c!"abcabc" = .ok c!"" [c!"abc", c!"abc"] ∧
    many0 (tag c!"abc") c!"abc123" = .ok c!"123" [c!"abc"] ∧ many0 (tag c!"abc") c!"123123" = .ok c!"123123" [] ∧
    many0 (tag c!"abc") c!"" = .ok c!"" [] := by decide +kernel

-- "if the parser passed in accepts empty inputs, many0 will return an error, to prevent going into an infinite loop"
example : many0 (takeWhile alpha) c!"abc" = .error ∧ many0 (takeWhile alpha) c!"" = .error := by decide +kernel

example : manyTill (tag c!"abc") (tag c!"end") c!"abcabcend" = .ok c!"" ([c!"abc", c!"abc"], c!"end") ∧
    manyTill (tag c!"abc") (tag c!"end") c!"abc123end" = .error ∧
    manyTill (tag c!"abc") (tag c!"end") c!"123123end" = .error ∧
    manyTill (tag c!"abc") (tag c!"end") c!"" = .error ∧
    manyTill (tag c!"abc") (tag c!"end") c!"abcendefg" = .ok c!"efg" ([c!"abc"], c!"end") := by decide +kernel

/-! ### the Rust standard library -/

-- `str::len`, `str::is_char_boundary`, `str::get`
example : blen c!"foo" = 3 ∧ blen c!"ƒoo" = 4 ∧ blen c!"Löwe 老虎 Léopard" = 21 := by decide +kernel

example : ([0, 6, 21].map (isBoundary c!"Löwe 老虎 Léopard")) = [true, true, true] ∧
    ([2, 8, 22].map (isBoundary c!"Löwe 老虎 Léopard")) = [false, false, false] := by decide +kernel

example : slice c!"🗻∈🌏" 0 4 = some c!"🗻" ∧ sliceFrom c!"🗻∈🌏" 1 = none ∧ slice c!"🗻∈🌏" 0 8 = none ∧
    slice c!"🗻∈🌏" 0 42 = none ∧ slice c!"🗻∈🌏" 4 7 = some c!"∈" ∧ slice c!"abc" 2 1 = none := by decide +kernel

-- `str::replace`
example : replaceAll c!"old" c!"new" c!"this is old" = c!"this is new" ∧
    replaceAll c!"is" c!"an" c!"this is old" = c!"than an old" ∧
    replaceAll c!"cookie monster" c!"little lamb" c!"this is old" = c!"this is old" ∧
    replaceAll c!"aa" c!"b" c!"aaa" = c!"ba" := by decide +kernel

-- `str::split`, `str::contains`
example : splitOn c!" " c!"Mary had a little lamb" = [c!"Mary", c!"had", c!"a", c!"little", c!"lamb"] ∧
    splitOn c!"X" c!"" = [c!""] ∧ splitOn c!"X" c!"lionXXtigerXleopard" = [c!"lion", c!"", c!"tiger", c!"leopard"] ∧
    splitOn c!"::" c!"lion::tiger::leopard" = [c!"lion", c!"tiger", c!"leopard"] ∧
    splitOn c!"|" c!"||||a||b|c" = [c!"", c!"", c!"", c!"", c!"a", c!"", c!"b", c!"c"] ∧
    splitOn c!"/" c!"(///)" = [c!"(", c!"", c!"", c!")"] ∧ splitOn c!"0" c!"010" = [c!"", c!"1", c!""] ∧
    splitOn c!" " c!"    a  b c" = [c!"", c!"", c!"", c!"", c!"a", c!"", c!"b", c!"c"] := by decide +kernel

example : containsStr c!"nana" c!"bananas" = true ∧ containsStr c!"apples" c!"bananas" = false ∧
    containsStr c!"" c!"" = true := by decide +kernel

-- `char::is_whitespace`, `char::is_alphanumeric`, `char::is_lowercase`
example : [' ', ' ', '\n', '　', ' ', '\u0085'].all isWhitespace = true ∧
    ['越', 'a', '​', '﻿'].any isWhitespace = false := by decide +kernel

example : ['k', '7', 'K', 'a', 'z', 'A', 'Z', '0', '9'].all (@isAlnum Uni.ascii) = true ∧
    ['/', ':', '@', '[', '`', '{', ' ', '-'].any (@isAlnum Uni.ascii) = false ∧
    ['a', 'z'].all (@isLower Uni.ascii) = true ∧ ['A', '1', ' '].any (@isLower Uni.ascii) = false := by decide +kernel

-- `str::parse`, `to_string`
example : parseUnsigned u32Max c!"4" = some 4 ∧ parseUnsigned u32Max c!"j" = none ∧ parseUnsigned u8Max c!"0A" = none ∧
    parseUnsigned u32Max c!"" = none ∧ parseUnsigned u32Max c!"+" = none ∧ parseUnsigned u32Max c!"-" = none ∧
    parseUnsigned u32Max c!"+10" = some 10 ∧ parseUnsigned u32Max c!"-1" = none ∧ parseUnsigned u32Max c!"++1" = none ∧
    parseUnsigned u8Max c!"255" = some 255 ∧ parseUnsigned u8Max c!"256" = none ∧ parseUnsigned u32Max c!" 1" = none ∧
    parseUnsigned u32Max c!"4294967295" = some 4294967295 ∧ parseUnsigned u32Max c!"4294967296" = none ∧
    natToStr 0 = c!"0" ∧ natToStr 4294967295 = c!"4294967295" := by decide +kernel

-- `BTreeMap`: insertion replaces, iteration is in the order of keys
example : (BMap.ofList [(c!"b", 1), (c!"a", 2), (c!"b", 3), (c!"ab", 4), (c!"é", 5), (c!"z", 6)]) =
    [(c!"a", 2), (c!"ab", 4), (c!"b", 3), (c!"z", 6), (c!"é", 5)] := by decide +kernel

/-! ### chrono -/

-- `NaiveDate::from_ymd_opt`
example : (fromYmd 2015 3 14).isSome = true ∧ (fromYmd 2015 0 14).isSome = false ∧
    (fromYmd 2015 2 29).isSome = false ∧ (fromYmd (-4) 2 29).isSome = true ∧ (fromYmd 400000 1 1).isSome = false ∧
    (fromYmd (-400000) 1 1).isSome = false ∧ (fromYmd 1900 2 29).isSome = false ∧ (fromYmd 2000 2 29).isSome = true := by
  decide +kernel

-- `%Y`: "at least four digits, years out of 0..=9999 have a sign"
example : fmtDate ⟨2015, 9, 5⟩ = c!"20150905" ∧ fmtDate ⟨0, 1, 2⟩ = c!"00000102" ∧ fmtDate ⟨12345, 6, 7⟩ = c!"+123450607" ∧
    fmtDate ⟨-1, 1, 2⟩ = c!"-00010102" ∧ fmtDate ⟨-12345, 6, 7⟩ = c!"-123450607" := by decide +kernel

-- leap seconds
example : fmtDateTime ⟨⟨2015, 6, 30⟩, 23, 59, 59, 1000000000⟩ = c!"20150630T235960" ∧
    parseDateTime c!"20150630T235960" = some ⟨⟨2015, 6, 30⟩, 23, 59, 59, 1000000000⟩ ∧
    parseDateTime c!"20150630T235961" = none := by decide +kernel

-- `parse_from_str`: no rest, no text missing, values in range, blanks before numbers
example : parseDate c!"20150905" = some ⟨2015, 9, 5⟩ ∧ parseDate c!"2015 9 5" = some ⟨2015, 9, 5⟩ ∧
    parseDate c!"20150905 " = none ∧ parseDate c!"2015095" = some ⟨2015, 9, 5⟩ ∧ parseDate c!"201509" = none ∧
    parseDate c!"20150931" = none ∧ parseDate c!"+123450607" = none ∧ parseDate c!"-00010102" = none ∧
    parseDate c!"+12345 6 7" = some ⟨12345, 6, 7⟩ ∧ parseDateTime c!"20150905T235609" = some ⟨⟨2015, 9, 5⟩, 23, 56, 9, 0⟩ ∧
    parseDateTime c!"20150905t235609" = none ∧ parseDateTime c!"20150905T240000" = none ∧
    parseUtc c!"20150905T235609Z" = some ⟨⟨⟨2015, 9, 5⟩, 23, 56, 9, 0⟩⟩ ∧ parseUtc c!"20150905T235609" = none := by
  decide +kernel

-- `Display` of `Duration`
example : (⟨0⟩ : Duration).toStr = c!"P0D" ∧ (⟨42 * 86400 * 1000000000⟩ : Duration).toStr = c!"PT3628800S" ∧
    (⟨-42 * 86400 * 1000000000⟩ : Duration).toStr = c!"-PT3628800S" ∧ (⟨42000000⟩ : Duration).toStr = c!"PT0.042S" ∧
    (⟨42000⟩ : Duration).toStr = c!"PT0.000042S" ∧ (⟨42⟩ : Duration).toStr = c!"PT0.000000042S" ∧
    (⟨(7 * 86400000 + 6543) * 1000000⟩ : Duration).toStr = c!"PT604806.543S" ∧
    (⟨-86401 * 1000000000⟩ : Duration).toStr = c!"-PT86401S" ∧ (⟨-1⟩ : Duration).toStr = c!"-PT0.000000001S" := by
  decide +kernel

end Ical.Sanity.Libraries
