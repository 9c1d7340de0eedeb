# Formal model of KarmaPenny/pdfparser in Lean 4

`lean/Verif/Model` models the Go code function by function, `lean/Verif/Spec` holds the specifications
(grammars, relations and reference algorithms that do not mention the model's helpers), `lean/Verif/Lemmas` the
helper lemmas and `lean/Verif/Props` the property theorems, named after `properties.jsonl`. Each property
theorem is accompanied by an `example` (or a `…_meets` theorem) showing a non-trivial case that meets its
hypotheses. `seeded/LOG.jsonl` records wrong programs tried against the theorems.

## Trusted base

* Lean 4.33.0's kernel. Every theorem depends on at most `propext`, `Classical.choice` and `Quot.sound`
  (AXIOMS.md lists them for each property theorem); no axioms are added, no `sorry`, no `native_decide`, no
  `bv_decide`. Concrete witnesses are evaluated by the kernel (`decide +kernel`, `rfl`).
* A few modules of Mathlib (ordered fields, rational numbers, `linarith`, `ring`, `norm_num`) in the modules on
  numbers (`Spec/Double`, `Lemmas/Double`, `Lemmas/Number`, `Lemmas/AsInt`, `Props/Number`, imported by others); no other proof uses them.
* The reading of the Go source by which the model was written: nothing ties the model to the code
  mechanically. Every definition cites file and lines. `Test/RepoTests.lean` evaluates the model on the inputs
  of the repository's own `unit_test.go` and checks the expected outputs.
* The reading of the Go standard library listed under "External behaviour".

## What is modelled

| module | models |
|---|---|
| `Bytes` | bytes, white space / delimiter tables, two's complement `int` / `int64` |
| `Float` | IEEE binary64 as exact rationals with round-to-nearest-even (software model), `int(f)` on amd64, `fmt.Sprint` of floats |
| `Reader` | `bufio.Reader` (4096 byte buffer) over a seekable file: `ReadByte`, `UnreadByte`, `Peek`, `Discard`, `Read`, `Seek`, `CurrentOffset` |
| `Object` | keyword.go, number.go, name.go, string.go, array.go and dictionary.go `String()`, errors.go, the maps |
| `Lexer`, `Parser` | parser.go: `ReadCommand`, `ReadObject` and all other `Read*` functions on tokens |
| `Filters` | filters.go (`DecodeStream`, ASCIIHex, ASCII85, RunLength, predictors), utility.go |
| `Monad`, `Getters` | logger.go, the typed getters of array.go and dictionary.go |
| `Crypt` | encryption.go (RC4 concrete; MD5 and the AES block function are parameters), `SetPassword`, crypt filters |
| `GetObject` | parser.go `GetObject`, `ReadStream`, reference.go |
| `Xref` | parser.go `Load`, `findXrefOffsets`, `findObjects`, `GetStartXrefOffset`, `loadXref*`, xref.go, with a small regexp semantics |
| `Extract` | font.go, page.go, object.go, action.go, file.go, output.go, trees of dictionary.go |
| `Main` | pdf.go `Parse`, output.go `NewOutput`/`Close`, main.go: file system calls and outcome |
| `Lzw`, `Flate` | the LZW and zlib readers that filters.go calls (library code) |
| `Concrete` | an instance of the parameters (real MD5) for evaluating witnesses |

Go code is a state-passing function over the parser state (position, end of the buffered region, whether a byte
can be unread, error log). Panics are a result (`Res.panic`). Unbounded recursion and loops that the types do
not bound have a fuel argument whose exhaustion is a third result (`Res.oof`): "terminates" means that some
fuel is enough (and more fuel never changes a result, lemma `resolver_le` and its kin), "does not terminate"
that no fuel is enough. No theorem is about fuel otherwise: statements of the form "every run that returns"
are for every amount of fuel.

Order of iteration over Go maps: loops over maps whose order can be seen take their order from an oracle
(`Sys.order`), an arbitrary permutation for every loop; theorems on `Parse` hold for every oracle.

### Simplifications and what is not modelled

* Go's stack limit, memory exhaustion, write errors after a file was created, concurrency: not modelled.
  (Deep nesting in a file makes the Go program exceed its 1 GB stack; the model has no such limit.)
* `-v` output on stderr: only that `Debug` dereferences the pointer `Verbose` (C51).
* The loops that merge the sections of the cross reference and of the trailer run in the order of the model's
  lists; `C49_load_merge` proves that the result as a map does not depend on it. All other loops over maps
  (repair, crypt filters, extraction, printing of dictionaries) take their order from the oracle.
* `int` has 64 bits (amd64, as is the conversion from floats).
* The regular expressions of `findObjects` and `findXrefOffsets` are modelled by a matcher for exactly these
  expressions (leftmost match, greedy repetition with backtracking), not by a general engine.
* zlib and LZW decoders: parameters (any function from data to bytes and an error flag). For C91 to C94
  the readers (Go's compress/lzw with PDF's settings, golang.org/x/image/tiff/lzw, compress/zlib with
  compress/flate) are also modelled, `Model/Lzw.lean` and `Model/Flate.lean`; these model library code that is
  not in /repo and were written from knowledge of its algorithms, not from its text. The other theorems do not
  depend on them; the runs of `Test/RepoTests.lean` do.
* MD5: a parameter whose digests have 16 bytes. AES: a parameter mapping blocks to blocks.
* `bufio.Reader` is modelled; the underlying `Read` is assumed to fill the buffer when the file has enough bytes.
* Test code and `pdf/test` are not modelled, except as in `Test/RepoTests.lean`.

## Where the code disagrees with the properties

For each of these there is a theorem with a concrete witness (suffix `_false`) and, beside it, what does hold
(suffix `_partial`).

| property | what the code does |
|---|---|
| C06 | fraction digit number i counts d/(10 i) instead of d/10^i: `0.25` is 0.45 |
| C08 | raw.pdf does not quote parentheses in strings nor spaces in names; 1000000 prints as `1e+06` |
| C09 | `ReadInt` at the end of the file unreads a byte of white space |
| C11 | a stream cut off right after the line break is not reported |
| C19, C55 | `bufio.Reader.Read` may return fewer bytes than asked for: `endstream`, or the `<<` of a trailer, is missed at a buffer boundary |
| C20, C23, C61 | a stream that gives itself as its filter: `GetObject` and `Load` do not return |
| C22 | a name tree whose Kids array is given by reference and contains a node with the same array: `GetNameTreeMap` does not return |
| C25 | the repair condition `ok \|\| n != object_number` should be `!ok \|\| …`: good entries are redirected |
| C27 | a negative field width makes `ReadInt64` panic |
| C29 | the last partial group of ASCII85 data is padded with zeros: last bytes are wrong |
| C31 | PNG Sub, Average and Paeth use the byte before instead of the pixel before |
| C34 | huge /Colors overflows a bit position: panic |
| C36 | AES decryption keeps the initialisation vector and the padding |
| C40 | a short /U, or a crypt filter /Length above 16: panic |
| C42 | /EFF is ignored (looked up as `EEF`); /StmF and /StrF default to RC4 instead of Identity |
| C44 | all codes of a bfrange get the value of the first; a range with its values in an array, and the ranges after it in the block, are dropped; a range up to 2^63-1 loops forever |
| C46 | only the elements at even positions of a TJ array are shown |
| C47 | dictionaries inside an object that is an array are not looked at |
| C48 | a launch action whose /F is a string writes no command |
| C49 | with a negative offset the result of `GetObject` depends on what was read before, hence on the iteration order |
| C51 | `Parse` panics in a program that does not set `pdf.Verbose` |
| C53 | errors.txt is never closed, files.txt is closed twice |
| C60 | a cross reference stream with first width 0 marks all objects as free |
| C73 | raw.pdf has the decoded data under a dictionary that still names the filters |
| C74 | the word `xref` in `startxref` is loaded as a section: the dictionary of the next object is merged into the trailer |
| C78 | when offsets are wrong and `startxref` names an older section, objects deleted since come back |
| C80, C102 | objects in object streams (cross reference entries of type 2) are read as null, and nothing is reported |
| C82 | only the user password is checked: the owner password is refused unless it is also the user password |
| C83 | /XRefStm is not read: objects hidden in hybrid-reference files are read as null |
| C86 | files attached by an annotation (/Subtype /FileAttachment, /FS) are not extracted: no line in files.txt and no file in the output directory |
| C87 | a launch action whose /F is a string gives a line in files.txt, but none in commands.txt |
| C88 | a file specification with /FS /URL is not taken for a URL: the code looks for a string, ISO 32000-1 has a name; the URL is not in urls.txt |
| C88, C89 | as C47: links and scripts of annotations are not in the report when the array /Annots is an object of its own |
| C95 | ToUnicode values are written as they are, in UTF-16BE: contents.txt has a zero byte in front of each ASCII character |
| C96 | a raw CR or CR LF in a literal string is kept, not read as a line feed |
| C97 | text strings in UTF-16BE are copied to javascript.js with their byte order mark |
| C98 | `GetObject` does not compare the number in the object header with the one asked for: a number listed with the offset of another object is read as that object |
| C84 | as C46: of a `TJ` array with two strings one after the other only the first is in contents.txt |
| C85, C94 | a carriage return at the end of the data of a stream, or of its encoding, is dropped, whatever /Length says |
| C85 | as C74: a file whose second edit starts with an object with a key /Encrypt is refused as encrypted |
| C99 | resources that a page has from a node above it are not looked for: its text is written in the default font, as the codes it is shown with |
| C101 | text of form XObjects, drawn with `Do`, is not extracted |
| C103 | /Encoding and /Differences of fonts are not read: text in a font without ToUnicode is written as its codes |
| C64, C68, C90 | an array of streams given by reference (/XFA, /Contents) is taken for a stream without data |

Further observations without a property of their own: a row of a cross reference stream cut short keeps its first fields; widths `[0 0 0]` with a large /Size loop for as long as /Size says; a key
followed by `]` or the end gets the value null; errors inside content streams and character maps are
not logged.

## Properties

The status of each property, how it is proved, and its theorems with the first sentence of their description.
The statement of each theorem, with what is missing from a partial one, is in the Lean file.


### C01 Reading an object always terminates and makes progress (proved)

Induction over fuel: 2·(bytes left)+3 is enough, with the position as measure, from every reader state (the state is any buffer position).

* `C01_object_total` (Props/Parser.lean): Reading an object ends with a result, from any state of any file, when decryption does not crash (no decryption, RC4): the position never moves back, moves forward unless the end of the input was reached, and does not pass it.

### C02 Literal strings are read back exactly (proved)

`Spec.Syntax` defines spellings of a string inductively; induction over the spelling against the byte-level reader.

* `C02_string_read` (Props/Lexer.lean): Any spelling `t` of the bytes `v` as a literal string (plain bytes, balanced parentheses, letter, octal and line-break escapes), in any file and after any white space and comments, is read as exactly `v`; the reader stops just after the closing parenthesis; only unnecessary octal escapes are logged.
* `C02_string_roundtrip` (Props/Lexer.lean): In particular every byte string survives the usual escaping, and nothing is logged.

### C03 Hex strings decode digit pairs, ignoring everything else (proved)

List-level function on the bytes up to `>`; induction over the input. The two cases (closed, cut off) are shown to be exhaustive.

* `C03_hex_closed` (Props/Lexer.lean): With a closing `>`: the digits count in pairs, everything else is ignored, and each byte that does not belong there is logged.
* `C03_hex_unclosed` (Props/Lexer.lean): Without a closing `>` everything up to the end of the file counts and the missing marker is logged.
* `C03_hex_cases` (Props/Lexer.lean): The two cases are all there is: after `<`, every input is a body and `>`, or a body cut off by the end of the file (possibly inside a comment).
* `C03_hex_roundtrip` (Props/Lexer.lean): In particular the hex encoding of every byte string is read back.

### C04 Names are read back exactly (proved)

Spellings of names with #xx escapes; induction.

* `C04_name_read` (Props/Lexer.lean): Any spelling of a name, followed by a delimiter, white space or the end of the file, is read as exactly that name, and the reader stops before what follows.
* `C04_name_roundtrip` (Props/Lexer.lean): In particular every byte string survives being written as a name, and nothing is logged.

### C05 Integers are exact (proved)

The float accumulator is exact below 2^53 (binary64 modelled by rationals); `ReadInt` by modular arithmetic.

* `C05_number_exact` (Props/Lexer.lean): A decimal integer of magnitude below 2^53, with or without sign, is read exactly.
* `C05_int_modulo` (Props/Lexer.lean): `ReadInt` returns the value of the digit run modulo 2^64, as a signed 64-bit integer.
* `C05_int_fails` (Props/Lexer.lean): and fails when no digit follows the white space.

### C06 Decimal fractions have their decimal value (partial)

Refuted by evaluation of `0.25`; partial: exactly the numbers whose later fraction digits are zero are read right (error bounds by induction over the digits, for numbers below 2^32 with up to 100 fraction digits); those are read as the nearest double although they are rounded twice (`C06_tenths_partial`, whole part below 2^53).

* `C06_fraction_false` (Props/Lexer.lean): `0.25` is read as 0.45: fraction digit number `i` contributes `d / (10 i)` instead of `d / 10^i`.
* `C06_fraction_partial` (Props/Lexer.lean): With one fraction digit the result is the integer part plus the tenth, each rounded to the nearest double.
* `C06_tenths_partial` (Props/Number.lean): A number with a fraction whose digits after the first are all zero, however many, and with a whole part below 2^53, is read as the double nearest to what it says.
* `C06_when_partial` (Props/Number.lean): Which numbers with a fraction are read right: of numbers below 2^32 with up to 100 fraction digits exactly those whose fraction digits after the first are all zero.

### C07 Every well-formed object text is parsed to the object it denotes (proved)

`Spec.Grammar`: inductive relation between objects and their texts; mutual induction over derivations, with the lemmas of C02–C05, C12 and C13 at the leaves.

* `C07_object_read` (Props/Parser.lean): Every spelling of every object, after any white space and comments and followed by anything that does not extend its last token, is read as that object; the reader stops right after it and logs exactly the unnecessary escapes in it.

### C08 raw.pdf re-parses to the same objects (partial)

`Spec.Print`: plain values (among numbers: integers below one million and the doubles nearest to such a number with one fraction digit, for which the shortest-digits search is followed); their text is a spelling in the sense of C07. Refuted for strings, names and large numbers by evaluation. `C08_order_partial`: in whatever order the entries of dictionaries are printed.

* `C08_reread_partial` (Props/Print.lean): The text of every plain value (`Spec.Plain`: no bytes that would need quoting, no numbers printed in exponent form) is read back as that value, by itself, with no message; the reader stops right after it.
* `C08_indirect_partial` (Props/Print.lean): The same inside an indirect object as written to raw.pdf: the value after `n g obj`.
* `C08_string_false` (Props/Print.lean): A string with an unbalanced parenthesis is not quoted.
* `C08_name_false` (Props/Print.lean): A name with a space in it is not quoted.
* `C08_number_false` (Props/Print.lean): One million prints as `1e+06`, which reads as 1.
* `C08_numbers` (Props/Print.lean): Numbers of objects and references, negative ones too (`-1 0 R` is read as a reference), are printed in decimal.
* `C08_order_partial` (Props/Raw.lean): Whatever the order in which the entries of its dictionaries are printed, an indirect object with a plain value is read back from its text as that value up to the order of entries.

### C09 White space and comments between tokens are insignificant (partial)

Lemma on skipping white space and comments, applied in each reader.

* `C09_object` (Props/Parser.lean): `ReadObject`.
* `C09_name` (Props/Parser.lean): `ReadName`.
* `C09_keyword` (Props/Parser.lean): `ReadKeyword`.
* `C09_number` (Props/Parser.lean): `ReadNumber`.
* `C09_string` (Props/Parser.lean): `ReadString`.
* `C09_hex` (Props/Parser.lean): `ReadHexString`.
* `C09_array` (Props/Parser.lean): `ReadArray`.
* `C09_int_partial` (Props/Parser.lean): `ReadInt`, provided something other than white space and comments follows; see `C09_int_false` for the end of the file.
* `C09_int_false` (Props/Parser.lean): After white space at the end of the file the last byte is pushed back, so the position is not shifted by the inserted length.

### C10 Only documented abnormalities are logged (proved)

The log is a list of an enumeration with the fourteen messages of README.md and one spelling each; the theorem is about their text.

* `C10_messages` (Props/Main.lean): Whatever the file, the password and the outcome: every message logged is one of the fourteen of README.md.
* `C10_complete` (Props/Main.lean): Conversely every message of README.md exists.

### C11 Unterminated constructs are reported and keep what was read (partial)

Cut-off texts as an inductive relation; induction.

* `C11_cut_off` (Props/Parser.lean): An object that the end of the file cuts off, at any depth: everything read so far is returned, the whole input is used up, and each open construct is reported.
* `C11_array` (Props/Parser.lean): Whatever follows `[`: either the array ends at a `]`, or the input is used up and `unclosed array` is the last message.
* `C11_dictionary` (Props/Parser.lean): Whatever follows `<<`: either the dictionary ends at a `>>`, or the input is used up and the last message is `unclosed dictionary` or, after a key, `missing dictionary value`.
* `C11_string` (Props/Parser.lean): Whatever follows `(`: either the string ends at a `)`, or the input is used up and the last message is `unclosed string` or, after a backslash, `unclosed escape in string`.
* `C11_stream_false` (Props/Stream.lean): The file ends right after the line break that follows `stream`: the result is empty data, and nothing is logged.

### C12 Dictionaries: the last value of a key wins and bad keys are skipped (proved)

Spelling of dictionary bodies with stray objects; last value wins as a lookup statement.

* `C12_dictionary` (Props/Parser.lean): A dictionary whose key positions hold names or stray objects: the stray objects are skipped, each with a message, and every key has the value of its last occurrence.

### C13 Looking ahead for a reference never loses input (proved)

Case analysis on what follows a number; the reader restores its position by seeking.

* `C13_number` (Props/Parser.lean): A number token that no integer and `R` follow is returned as a number, and the reader stops immediately after its text, whatever comes next.
* `C13_reference` (Props/Parser.lean): Followed by an unsigned integer and the keyword `R`, it is a reference with that integer as generation, and the reader stops after the `R`.
* `C13_token` (Props/Parser.lean): The two cases are all there is: what starts with a digit, sign or point is a number token and something that does not continue it.

### C14 Resolving a reference does not disturb the reader (proved)

`resolver` saves and restores the offset; what is read next depends only on it (C57).

* `C14_offset` (Props/GetObject.lean): Resolving a reference leaves the current offset where it was.
* `C14_next_object` (Props/GetObject.lean): What is read next is the same as if no reference had been resolved.
* `C14_getters` (Props/GetObject.lean): The same for every access to a dictionary or array entry.

### C15 Reference chains end; cycles give null (proved)

Chain relation in `Spec.Resolve`; induction over the visited set, bounded by the cross reference map.

* `C15_chain` (Props/GetObject.lean): Resolving is following the chain of references, starting with nothing visited, and then going back to where the reader was.
* `C15_not_reference` (Props/GetObject.lean): The result is never a reference.
* `C15_path` (Props/GetObject.lean): A chain of distinct references `n, n₁, ..., nₖ` that ends in an object which is not a reference resolves to that object, however long it is.
* `C15_cycle` (Props/GetObject.lean): If every object reached is a reference to another one of the set, the result is null, with no stream: cycles of every shape, with or without a tail leading into them.
* `C15_terminates` (Props/GetObject.lean): Following references never loops: it returns (or panics) whenever `GetObject` does.

### C16 Unknown, free and compressed objects are null (proved)

Case analysis.

* `C16_null` (Props/GetObject.lean): A number without an entry, or with one that is not of the in-use type, is null; the file is not read and the reader does not move.

### C17 Typed getters are total and type-faithful (proved)

Case analysis for every getter.

* `C17_dictionary` (Props/GetObject.lean): The getters of `Dictionary`: each returns exactly the value the entry stands for when that has the right type, and reports failure exactly when there is no entry or it has another type.
* `C17_array` (Props/GetObject.lean): The getters of `Array`; indexes below 0 or past the end are failures.
* `C17_stream` (Props/GetObject.lean): `GetStream` of both: the stream of the object a direct reference refers to, and failure exactly for everything else.
* `C17_reference` (Props/GetObject.lean): `GetReference` never resolves.
* `C17_total` (Props/GetObject.lean): No getter panics: they return whenever resolving references does.

### C18 A stream is the data up to endstream without its final line break (partial)

First occurrence of `endstream` as a list statement, under the buffering condition of C19.

* `C18_stream_partial` (Props/Stream.lean): After anything without a line break comes a line break, then data `d`, then `endstream` for the first time: the undecoded data is `d` without one trailing line break, nothing is logged and the reader is after `endstream`.
* `C18_unclosed_partial` (Props/Stream.lean): No `endstream`: the undecoded data is everything to the end of the file, and `unclosed stream` is logged.

### C19 Stream extraction does not depend on the reader's buffering (partial)

Refuted with the buffer model; partial: same result for all buffer states with enough bytes buffered.

* `C19_buffer_partial` (Props/Stream.lean): Two reader states at the same offset, whatever their buffers hold, yield the same data and the same new messages and stop at the same place, as long as in each of them the bytes up to the ninth after the line break come out of one buffer.
* `C19_false` (Props/Stream.lean): One parser has read the first 4090 bytes of the file, another one has seeked to offset 4090.

### C20 GetObject terminates on every file (partial)

Refuted by a file and an induction over fuel; partial: well-founded references through a rank.

* `C20_terminates_false` (Props/GetObject.lean): on a file whose only stream names itself as its filter, `GetObject` does not return, whatever the state it is called in and however deep the calls are allowed to nest.
* `C20_terminates_partial` (Props/GetObject.lean): `GetObject` returns (or panics) when the references that it follows are well founded: every reference in the `Type`, `Filter` and `DecodeParms` of a stream is in a set `A`, every reference in an object of `A` is in `A` and of lower rank.

### C21 Page tree traversal visits every reachable page once and terminates (proved)

`Spec.Tree`: depth-first search as an inductive relation on a graph of objects; order, completeness, no repetition by induction; termination with the number of unvisited objects as measure.

* `C21_order` (Props/Tree.lean): When GetPageTree returns a tree, it is the root followed by the dictionaries among the objects that a depth-first search along the references in Kids arrays visits.
* `C21_reachable` (Props/Tree.lean): The objects visited are exactly those that can be reached, each once.
* `C21_none` (Props/Tree.lean): GetPageTree finds no tree only if there is no dictionary under the key.
* `C21_terminates` (Props/Tree.lean): GetPageTree terminates, whatever the graph, if resolving a single reference does.
* `C21_returns` (Props/Tree.lean): GetPageTree returns, whatever the graph, if resolving a single reference does.
* `C21_file` (Props/Tree.lean): In a file whose offsets are not negative, GetPageTree terminates if resolving a single reference does: references to the same page, or to a page above, do not matter.

### C22 Name tree traversal terminates (partial)

Same relation for name trees, whose kids may also be direct. Partial: no endless way down through kids given as dictionaries; this bound is exact (`C22_endless_false`: with such a way it never returns, from the relation being inductive). Refuted also by a file with an induction over fuel.

* `C22_partial` (Props/Tree.lean): GetNameTreeMap terminates if resolving a single reference does and no node has an endless way down that uses only kids given as dictionaries.
* `C22_returns_partial` (Props/Tree.lean): In that case it returns, if resolving a single reference does.
* `C22_endless_false` (Props/Tree.lean): for every tree with a node from which an endless way leads down through kids given as dictionaries: GetNameTreeMap does not return.
* `C22_false` (Props/Tree.lean): for nodes that give their kids by reference: in this file the name tree of object 1 is read forever.

### C23 Following Prev links terminates (partial)

The list of visited offsets grows and is bounded by the file; refuted through C20.

* `C23_once` (Props/XrefLoad.lean): A section whose offset was already loaded in this chain is not loaded again.
* `C23_distinct` (Props/XrefLoad.lean): The offsets loaded in one chain, most recent first, are distinct.
* `C23_terminates_partial` (Props/XrefLoad.lean): Loading a section returns (or panics), whatever the `Prev` links are: they may form cycles or run through the whole file.
* `C23_terminates_false` (Props/XrefLoad.lean): for a cross reference stream that gives itself as its filter: loading it does not return.

### C24 Newer cross-reference sections take precedence (proved)

`Spec.Xref`: sections in any legal spelling; lookup statements on the merged maps; order of loading from a sorted plan.

* `C24_startxref` (Props/Load.lean): The section at the offset after `startxref` is loaded last.
* `C24_plan` (Props/Load.lean): `Load` loads sections in the order of their places in the file and the one after `startxref` at the end: at every place where `xref` stands and at every object found by scanning whose dictionary says that it is a cross reference stream, and nowhere else.
* `C24_load` (Props/Load.lean): A file that ends in `startxref`, the offset of a table and `%%EOF`: after `Load` every object number that table lists has the generation and type listed there, and every key of its trailer has the value listed there, whatever the other sections say (for the offsets see C25).
* `C24_table` (Props/Xref.lean): Loading a cross reference table (in any legal spelling; see C55 for `hbuf`): the section /Prev names is loaded first; then every object number listed has the entry listed (the last one, if listed twice) and every trailer key listed has the value listed, and the others are as /Prev left them.
* `C24_stream` (Props/Xref.lean): Loading a cross reference stream with direct /Index (or /Size) and /W: the section /Prev names is loaded first; then every object number listed, except the stream's own, has the entry listed, every trailer key the value listed, and the others are as /Prev left them.

### C25 Repair keeps good entries and fixes bad ones (partial)

Marker relation on the file text; loop invariant of the repair loop; refuted by two files.

* `C25_header` (Props/Document.lean): An entry at whose offset any object header stands is redirected to the last marker of its object; only the offset changes.
* `C25_good_partial` (Props/Load.lean): An entry that points at the last marker of its object still does, and its generation and type are unchanged.
* `C25_bad_partial` (Props/Load.lean): An entry at whose offset another number (or none) comes first is redirected to the last marker of its object; only the offset changes.
* `C25_unmarked` (Props/Load.lean): An entry for an object that has no marker in the file is kept.
* `C25_fields` (Props/Load.lean): Repair changes nothing but offsets: after `Load` every listed object has the generation and type listed, and the trailer is the one the sections gave.
* `C25_good_false` (Props/Load.lean): an entry that points at a header of its own object is redirected when the file has a later marker for that object (the condition in `Load` should read `!ok`).
* `C25_bad_false` (Props/Load.lean): an entry that does not point at a header is kept when the object's number and another number come first there.

### C26 Every object found by scanning is known after Load (proved)

Loop invariant over the markers found.

* `C26_known` (Props/Load.lean): After `Load` every object number for which the file has an `n g obj` marker has an entry.
* `C26_missing` (Props/Load.lean): An object that no cross reference section lists gets an entry in use that points at its last marker, with the generation given there.

### C27 Cross-reference stream fields are big-endian integers (partial)

Arithmetic modulo 2^64; refuted for negative widths.

* `C27_value` (Props/Xref.lean): `ReadInt64` with a width of at most the bytes that remain returns their big-endian value modulo 2^64 as a signed integer, and consumes exactly these bytes.
* `C27_exact` (Props/Xref.lean): With a width of at most 7 the value is exact.
* `C27_short` (Props/Xref.lean): With fewer bytes than the width, failure is reported.
* `C27_roundtrip` (Props/Xref.lean): Writing a number in `w` bytes and reading it back.
* `C27_no_panic_partial` (Props/Xref.lean): Widths from 0 to 2^48 never panic.
* `C27_panic_false` (Props/Xref.lean): a negative width makes `ReadInt64` panic, and a file can bring this about.

### C28 ASCIIHexDecode inverts hex encoding (proved)

Round trip by induction over an encoding relation.

* `C28_asciiHex_inverts` (Props/Filters.lean): Every hex encoding of `d` (any letter case, white space anywhere, last digit possibly omitted), with nothing or the `>` marker and arbitrary bytes after it, decodes to `d`.

### C29 ASCII85Decode inverts ASCII base-85 encoding (partial)

Round trip for whole groups, exact characterisation of the last one; refuted by evaluation.

* `C29_ascii85_inverts_false` (Props/Filters.lean): There is a byte string that ASCII85Decode does not restore from its standard encoding: the single byte `A`, encoded as `5l`, comes back as `@`.
* `C29_ascii85_inverts_partial` (Props/Filters.lean): What is missing is the last group when the length is not a multiple of 4.

### C30 RunLengthDecode inverts run-length encoding (proved)

Round trip by induction over segmentations; size bound by induction.

* `C30_runLength_inverts` (Props/Filters.lean): Whatever runs the data is split into, decoding the runs gives back the data, with or without the end marker and whatever follows it.
* `C30_runLength_bounded` (Props/Filters.lean): (size) On any input the output is at most 64 times as long as the input.

### C31 PNG prediction is undone (partial)

Row-wise invariants against the PNG specification; refuted by evaluation.

* `C31_png_inverts_false` (Props/Filters.lean): RGB data filtered with the Sub algorithm (3 bytes per pixel) is not restored: the decoder takes the byte before as the left neighbour instead of the byte one pixel before.
* `C31_png_inverts_partial` (Props/Filters.lean): What is missing are Sub, Average and Paeth rows for images of more than one byte per pixel.

### C32 TIFF prediction is undone (proved)

Bit-level invariant of the in-place loop, with C56.

* `C32_tiff_inverts` (Props/Filters.lean): For every image of whole rows with 1 to 16 bits per component, any number of colors and columns, `ReversePredictor` with Predictor 2 restores it from its horizontally differenced form.

### C33 Filters compose in the order listed; unknown ones are transparent (proved)

The filter loop is a fold; equations for each name.

* `C33_order` (Props/GetObject.lean): `ReadStream` decrypts the raw bytes and then applies the filters listed, first to last, each with the parameters at the same index; a stream without end gives no data.
* `C33_direct` (Props/GetObject.lean): With direct names and dictionaries (or null): `DecodeStream` for each name in order.
* `C33_unknown` (Props/GetObject.lean): Unsupported names are transparent, whatever the parameters.
* `C33_empty` (Props/GetObject.lean): Empty data passes through every filter.
* `C33_names` (Props/GetObject.lean): What each supported name stands for.
* `C33_compose` (Props/GetObject.lean): A list of filters is the composition of its parts.

### C34 Decoding never panics (partial)

Refuted by evaluation; partial by bounds on bit positions.

* `C34_decode_partial` (Props/Decode.lean): `DecodeStream` returns for every filter name, every data and all parameters, whatever the decompressors make of the data, when looking up references returns.
* `C34_decode_false` (Props/Decode.lean): with `/Predictor 2 /Colors 1152921504606847232 /Columns 2`, `DecodeStream` of a Flate stream with one byte panics.
* `C34_no_panic_false` (Props/Filters.lean): Reversing a TIFF predictor panics for some parameters: with `/Predictor 2 /BitsPerComponent 8 /Colors 1152921504606847232 /Columns 2` a bit position overflows `int` and becomes a negative index.
* `C34_no_panic_partial` (Props/Filters.lean): What is missing are TIFF parameters so large that bit positions overflow 64 bits.

### C35 RC4-encrypted strings and streams decrypt to the original (proved)

`Spec.Rc4`: RC4 with the state as a function, counted from the start; the list-based cipher computes it (induction over the steps, `C35_cipher`). RC4 is an involution (same key stream); for objects by induction over C07 with encrypted strings.

* `C35_decrypt` (Props/Crypt.lean): RC4 undoes RC4 under the same key, and keeps the length.
* `C35_cipher` (Props/Crypt.lean): Data encrypted with RC4 (`Spec.Rc4`: key scheduling, then one byte of key stream for each byte) is decrypted to what it was, and to nothing else.
* `C35_object` (Props/Crypt.lean): An object spelled with all its strings encrypted is read as the object with the plain strings.
* `C35_stream` (Props/Crypt.lean): If the stream data in the file is the encryption of `p`, reading the stream yields `p`.

### C36 AES-encrypted data decrypts to the original (partial)

CBC with an abstract block permutation; refuted for every key.

* `C36_false` (Props/Crypt.lean): , always: what `Decrypt` leaves is never the plaintext.
* `C36_aes_partial` (Props/Crypt.lean): The result is the initialisation vector, then the plaintext, then its padding.
* `C36_other_partial` (Props/Crypt.lean): Data that cannot be an encryption (no whole blocks after the vector) is returned as it is; no data makes `Decrypt` panic when the `-v` flag has been set up.

### C37 Per-object keys follow the PDF algorithm (proved)

Byte-level equality with Algorithm 1 of the standard.

* `C37_object_keys` (Props/Crypt.lean): The key for an object is the one of Algorithm 1.
* `C37_low_bits` (Props/Crypt.lean): Numbers that agree in their low 24 and 16 bits have the same key.

### C38 The right user password is accepted and a wrong one refused (proved)

Against Algorithms 2–5 in `Spec.Crypt`.

* `C38_refuses` (Props/Crypt.lean): A password that is not the user password is refused.
* `C38_accepts` (Props/Crypt.lean): The user password is accepted: whatever `SetPassword` returns is no error.

### C39 A failed password leaves the handler as it was (proved)

Case analysis of the exits of `SetPassword`.

* `C39_unchanged` (Props/Crypt.lean): When `SetPassword` returns an error, the filters are what they were; so are the trailer and the cross reference table, whatever it returns.

### C40 Selecting the password never panics (partial)

Refuted by two dictionaries; partial by bounds on /U of the standard handler and on /Length of crypt filters with a method.

* `C40_short_U_false` (Props/Crypt.lean): a U entry of at most eight bytes panics for revision 3, with any password.
* `C40_filter_length_false` (Props/Crypt.lean): a crypt filter with a /Length above 16 panics when the password is right.
* `C40_partial` (Props/Crypt.lean): `SetPassword` returns whenever following references does, the U entry (of the standard handler) is longer than eight bytes, and the lengths of crypt filters with a method are between 0 and 16.

### C41 Only the first 32 password bytes matter (proved)

Rewriting: only `take 32` of the password is used.

* `C41_first_32` (Props/Crypt.lean): Passwords that agree on their first 32 bytes give the same result and leave the same parser, in `SetPassword` and in `Load`.

### C42 The crypt filter for a stream is the one the file selects (partial)

Lookup statements on the filter map; refuted for EFF and defaults.

* `C42_named_partial` (Props/CryptFilters.lean): When `SetPassword` accepts the password of a revision 4 file: streams are decrypted with the filter named by /StmF, strings with the one named by /StrF, and a /CF entry defines the filter it describes; `Identity` (unless redefined) decrypts nothing.
* `C42_EFF_false` (Props/CryptFilters.lean): for embedded files: /EFF is ignored.
* `C42_default_false` (Props/CryptFilters.lean): for the defaults: without /StmF and /StrF the standard says Identity (no decryption); here it is RC4 with the file key.
* `C42_unencrypted` (Props/CryptFilters.lean): What the cross reference table marks as not encrypted (cross reference streams, the encryption dictionary) is read without decryption: the result does not depend on the security handler.
* `C42_encrypt_dictionary` (Props/CryptFilters.lean): After `Load`, an encryption dictionary that is an indirect object is marked as not encrypted.
* `C42_stream_filter` (Props/CryptFilters.lean): The filter for a stream: the stream filter, or the embedded file filter when /Type says so; a leading `Crypt` filter overrides it by name (`Identity` without a name) and is removed together with its parameters.

### C43 Text decoding splits into fixed-width codes (proved)

Induction over the number of codes.

* `C43_decode` (Props/Font.lean): A text that consists of codes of the font's width and a shorter rest: every code is replaced by its value, or kept when it has none; the rest is dropped.
* `C43_split` (Props/Font.lean): Every text is of that form, so `Decode` returns.
* `C43_width` (Props/Font.lean): The width is at least 1 for every ToUnicode stream.
* `C43_append` (Props/Font.lean): Decoding a concatenation at a code boundary.
* `C43_default` (Props/Font.lean): The default font leaves text as it is.

### C44 bfrange maps consecutive codes to consecutive values (partial)

`Spec.Text`: entries of a character map in any spelling; last range wins; refuted for the second code of a range; termination by a measure on ranges.

* `C44_lookup` (Props/Font.lean): What loading a character map gives for each code `n`: the value of the last range listed that contains it.
* `C44_width` (Props/Font.lean): The width is that of the last code listed.
* `C44_text` (Props/Font.lean): Text decoded with a character map: codes of the map's width, at most seven bytes, are replaced by what the map says.
* `C44_first_partial` (Props/Font.lean): A code that is the first of its range (so every code listed on its own) gets its value.
* `C44_false` (Props/Font.lean): for the second code of a range: with `<00> <01> <41>` code 01 gives A, not B.
* `C44_array_false` (Props/Font.lean): for ranges whose values are listed in an array (ISO 32000-1, 9.10.3): neither the codes of such a range nor those of the ranges after it in the block get a value.
* `C44_terminates_partial` (Props/Font.lean): Loading a character map returns, unless the map has a hex string whose value is 2^63 - 1 modulo 2^64 (see `C44_terminates_false`).
* `C44_terminates_false` (Props/Font.lean): with a range that ends at the largest integer, loading does not return.

### C45 Text shown by Tj, ' and " inside BT..ET is extracted in order (proved)

`Spec.Text`: blocks of a content stream; simulation of the loop; totality by C01.

* `C45_page` (Props/Extract.lean): A page whose /Contents is a stream adds the text of that stream, with the fonts that the page's resources name, to contents.txt and nothing else.
* `C45_page_parts` (Props/Extract.lean): A page whose /Contents is an array adds the texts of the streams in it, in order, and nothing else.
* `C45_text` (Props/Page.lean): The text of a content stream, as its blocks prescribe: a line for each command that shows text, decoded with the current font, and nothing from outside the blocks.
* `C45_pieces` (Props/Page.lean): Every sequence of commands is made of such pieces.
* `C45_exists` (Props/Page.lean)
* `C45_returns` (Props/Page.lean): Extraction returns for every content stream, well-formed or not.

### C46 Text shown by TJ contains every string of the array (partial)

Refuted by evaluation; partial for strings at even positions.

* `C46_false` (Props/Page.lean): fails.
* `C46_partial` (Props/Page.lean): Every string of the array of a `TJ` is shown, when the strings stand at even positions only.

### C47 Every JavaScript, URI and action entry is extracted (partial)

Writes of a run as a list (`Spec.Extract`); structural induction over nested values; permutation for map order. Refuted for arrays.

* `C47_partial` (Props/Extract.lean): After `Parse` has returned without an error, every object in use was read, and for every dictionary inside it, at any depth, the string given there for /JS is in javascript.js with a line feed after it, and that for /URI in urls.txt.
* `C47_exact_partial` (Props/Extract.lean): What javascript.js consists of, exactly: for each object in use and each dictionary inside it the script its entry /JS stands for, a string or the data of a stream, given directly or by reference, once each, in some order.
* `C47_exact_meets` (Props/Extract.lean): The hypotheses of `C47_exact_partial` can be met whenever no offset is negative.
* `C47_false` (Props/Extract.lean): for objects that are arrays: dictionaries inside them are not extracted.

### C48 File and action extraction follows the documented table (partial)

What each case adds to the report, from the values its entries stand for.

* `C48_url` (Props/Extract.lean): A file specification with /FS (URL) adds its /F to urls.txt and nothing else.
* `C48_url_none` (Props/Extract.lean): With no /F it adds nothing.
* `C48_embedded` (Props/Extract.lean): An embedded file is written to the file named by the hexadecimal MD5 of its data and listed in files.txt with that hash and its name (32 zeros if it has none).
* `C48_params` (Props/Extract.lean): A file with parameters is listed with 32 zeros, and with its parameters in commands.txt, whether or not it is launched.
* `C48_plain` (Props/Extract.lean): A file with neither is listed with 32 zeros, and if it is launched it is in commands.txt too.
* `C48_nameless` (Props/Extract.lean): A file without a name adds nothing unless it is embedded.
* `C48_action` (Props/Extract.lean): An action adds what the file specifications /F and /Win add, as launched ones if it is a launch action.
* `C48_action_string` (Props/Extract.lean): An action whose /F is a string lists that file with 32 zeros.
* `C48_false` (Props/Extract.lean): for launch actions whose /F is a string: the file is listed, but no command.

### C49 Results do not depend on map iteration order (partial)

Steady computations: same writes up to permutation for every oracle; reads do not depend on the reader state when offsets are not negative (`Lemmas.Fixed`); `Load` leaves the same maps for every order of the repair and of the crypt filters (`Lemmas.LoadOrder`). Refuted otherwise.

* `C49_load_merge` (Props/Order.lean): Merging a section into the cross reference map or a trailer into the trailer gives the same map whatever the order of the loop (parser.go:268-275, 296-298).
* `C49_load_repair` (Props/Order.lean): Repair gives the same cross reference map whatever the order of the loop over the objects found by scanning (parser.go:59-70), if the offsets it tests are not negative.
* `C49_load` (Props/Order.lean): `Load` returns the same error and leaves the same parser whatever the order of its loops.
* `C49_partial` (Props/Order.lean): Up to the order of lines, the report of `Parse` is the same whatever the order in which `range` visits the maps: every file has the same lines, the same files are dumped, the same errors are logged.
* `C49_contents` (Props/Order.lean): The contents of a dumped file are the same too, unless two different dumped files have the same MD5.
* `C49_false` (Props/Order.lean): fails in general: here the URLs found depend on the order.

### C50 Parse on an unreadable input changes nothing (proved)

Trace of file system calls.

* `C50_unreadable` (Props/Main.lean): The input file cannot be opened: `Parse` fails and the directory keeps its contents.
* `C50_directory` (Props/Main.lean): When `Parse` returns, whatever the directory held before, it holds the seven report files, each once, and the dumped files, whose names are 32 characters long and thus are none of the seven.

### C51 Parse works as a library call (partial)

Refuted for every readable input; programs that set the flag: `C51_partial`, see C70.

* `C51_partial` (Props/Ends.lean): for a program that sets `pdf.Verbose`, on a file that contains nothing that can keep the program from returning (`Tame`, `MapsEnd`): whatever the password, the call returns, without an error if the file is not encrypted, and what it reports does not depend on the bounds the model puts on the depth of recursion, if these are large enough.
* `C51_false` (Props/Main.lean): The documented library call, in a program that does not set `pdf.Verbose`, panics for every readable input whose output directory can be created, after removing the old directory.

### C52 The command-line tool never overwrites without -f (proved)

Trace of file system calls of main.go.

* `C52_refuses` (Props/Main.lean): The output path exists and `-f` is not given: no file system call is made at all.
* `C52_runs` (Props/Main.lean): Otherwise, with two arguments, the program calls `Parse`.

### C53 All report files are closed (partial)

Trace of open and close calls.

* `C53_false` (Props/Main.lean): When all files could be created, errors.txt is never closed and files.txt is closed twice.
* `C53_closed_partial` (Props/Main.lean): The other files, including the input, are closed exactly once whenever `Parse` ends, even by a panic.

### C54 Dumped files are content-addressed (proved)

Invariant on the report.

* `C54_parse` (Props/Main.lean): After `Parse`, whatever the input: every dumped file is named by the MD5 of its contents, and every line of files.txt is either for an external file (32 zeros) or names a dumped file.
* `C54_dump` (Props/Main.lean): A dump adds one line to files.txt and stores the data under its MD5.

### C55 The trailer is found whatever the table's length (partial)

Buffer model: short read exactly when the length is 4095 modulo 4096.

* `C55_partial` (Props/Xref.lean): When the text from the start of the table to the trailer dictionary does not have length 4095 modulo 4096, every key of the trailer dictionary is read.
* `C55_false` (Props/Xref.lean): for every table where that length is 4095 modulo 4096: no key is read (and /Prev is not followed).

### C56 GetBits and SetBits are inverse bit-field accessors (proved)

Bit arithmetic with `Nat.testBit`.

* `C56_bits` (Props/Filters.lean): For a field of 1 to 24 bits, at any position: GetBits returns the big-endian number of these bits (zeros past the end of the data); SetBits changes the bits of the field, inside the data, to those of the value and no other bit, and keeps the length; and reading after writing inside the data gives the low `n` bits of the value.

### C57 Reading an object depends only on the unread bytes (proved)

Simulation between two reader states (`Lemmas.Cursor*`).

* `C57_object_unread_only` (Props/Parser.lean): What `ReadObject` returns, logs and how far it reads depend on the unread bytes alone: not on the bytes before, nor on how much of the input happens to be buffered, nor on what was read last (`Reader.UnreadByte` state).

### C58 GetObject returns what is written at the entry's offset (proved)

Composition of C07, C35, C37 at the entry's offset.

* `C58_object` (Props/IndObj.lean): `GetObject` on an in-use entry whose offset is that of a header, a value in any spelling and no `stream` keyword: the result has the number asked for, the generation of the entry, the value (with its strings decrypted) and no stream; the messages are those of the value.

### C59 GetObject returns the decoded stream (partial)

Composition with C18 and C33.

* `C59_stream_partial` (Props/IndObj.lean): `GetObject` on an in-use entry whose offset is that of a header, a dictionary, the keyword `stream`, a line break, data and `endstream`: the value is the dictionary and the stream is the data up to `endstream` without its final line break, decrypted, then put through the listed filters in order.

### C60 Cross-reference stream without a type column (partial)

Refuted for every such stream through C24, and for a file by evaluation.

* `C60_zero` (Props/Load.lean): for every cross reference stream (as in `C24_stream`) whose first width is 0: each object it lists, other than the stream itself, gets type 0, free, where the specification says 1, in use.
* `C60_false` (Props/Load.lean): , for a whole file.

### C61 Load returns on every file (partial)

Termination of the scanning loops (regular expression matches advance) and C23; refuted through C20.

* `C61_partial` (Props/XrefLoad.lean): `Load` returns (or panics) on every file, if no stream gives its filters by reference.
* `C61_false` (Props/XrefLoad.lean): `Load` does not return on a file whose cross reference stream gives itself as its filter.

### C62 A report file that cannot be created stops the run cleanly (proved)

Trace of file system calls.

* `C62_create_fails` (Props/Main.lean): If a report file cannot be created, `Parse` fails without extracting anything and creates no further file: the calls that create are those for the files before it and the one that failed.
* `C62_closed` (Props/Main.lean): In that case every file that was created is closed, except errors.txt (see C53); so is the input.

### C63 A name tree is listed completely (proved)

As C21, on name trees.

* `C63_order` (Props/Tree.lean): When GetNameTreeMap returns, it gives the names in the root and in the nodes below it, in the order of a depth-first search.
* `C63_none` (Props/Tree.lean): Without a dictionary under the key there are no names.
* `C63_exact` (Props/Tree.lean): Every name in a node of the tree is listed, and nothing else is; no object number is visited twice.
* `C63_once` (Props/Tree.lean): No object number is visited twice in a name tree.

### C64 The data of a form is extracted (partial)

From `Lemmas.Report`: the report on a form as a function of a view of the objects.

* `C64_stream_partial` (Props/Report.lean): A form in a stream is written to the file named by the hexadecimal MD5 of its data, and listed as form.xml in files.txt.
* `C64_array_partial` (Props/Report.lean): A form in an array is the streams that the array refers to, one after the other.
* `C64_none` (Props/Report.lean): Without /XFA nothing is written.
* `C64_false` (Props/Report.lean): for a form in an array that is given by reference: an empty form is written.

### C65 The name trees of embedded files and URLs are reported in order (proved)

Loop invariants over positions of the list of names.

* `C65_embedded` (Props/Report.lean): The embedded files listed are the second, fourth, … elements of the name tree /EmbeddedFiles, in order: file names with 32 zeros, or file specifications.
* `C65_urls` (Props/Report.lean): The URLs listed are the first, third, … elements of the name tree /URLS, in order.

### C66 All actions of a dictionary are reported (proved)

As C64, with a permutation for /AA.

* `C66_actions` (Props/Report.lean): The actions of a dictionary are all looked at: that under /A, that under /OpenAction, and all those in the dictionary under /AA, in some order.

### C67 The report is the sum of what the dictionaries of the file say (proved)

Refinement: the extraction with its reader state, oracle and fuel refines the relation `Spec.Reports` on views.

* `C67_report` (Props/Report.lean): When `Parse` returns without an error, the report holds, for each object in use, once and in some order, what is reported on each dictionary inside it, once and in some order, followed by the object itself; and nothing else.
* `C67_meets` (Props/Report.lean): The values and streams in the statement of `C67_report` exist whenever no offset is negative.

### C68 The text of a page covers all its streams of content (partial)

As C64; refuted by two files with the same content.

* `C68_partial` (Props/Report.lean): The text of a page is that of all the streams its /Contents stands for, in order, each with the fonts named in the page's resources.
* `C68_false` (Props/Report.lean): for contents in an array that is given by reference: the page has no text.

### C69 The verbose flag changes only what is printed (proved)

Equality of all functions for the two values of the flag, by induction on the bounds of recursion.

* `C69_verbose` (Props/Ends.lean): The flag `-v` has no effect on the outcome of a call, on the calls it makes to the file system, or on anything it writes into the output directory.
* `C69_program` (Props/Ends.lean): for the program: two runs that differ in `-v` only do the same.

### C70 Parse returns on every readable file (partial)

Larger bounds never change a result (`Lemmas.Deeper`, function by function). Refuted through C61. Partial: every function from the reader to `Parse` gives one and the same result for all sufficiently large bounds (`Lemmas.Runs*`), on files described by `Spec.Tame`, encrypted or not (decryption keeps the shape of values: `TameFor.mapStr`; `SetPassword` returns by C40).

* `C70_partial` (Props/Ends.lean): on the same files: the call returns, with one and the same result for all bounds on the depth of recursion that are large enough.
* `C70_bounds` (Props/Ends.lean): Whatever the file: once a call returns or crashes within some bounds on the depth of recursion, it does the same within all larger bounds.
* `C70_false` (Props/Ends.lean): `Parse` never returns on a file whose cross reference stream gives itself as its filter.

### C71 raw.pdf holds every object in use exactly once (proved)

Exact description of the writes to raw.pdf over the run; the cross reference has each number once (`Lemmas.Keys`).

* `C71_raw` (Props/Raw.lean): When `Parse` returns without an error, raw.pdf is the text of the objects that the numbers in use were read as, each once, in some order, with the entries of their dictionaries in some order; and nothing else.

### C72 Without a cross reference, every object of the file is still found (proved)

Occurrences of `obj` in a file built from texts of objects (`Spec.Layout`), by induction over the list: each match of the scanner is the header of one of them. Then C26, C58 and C59.

* `C72_read` (Props/Layout.lean): A file that has no cross reference section and is made up of objects, none of them a cross reference stream: `Load` succeeds whatever the password and the order in which maps are visited; reading a number then gives the last object of the file with it, and the messages its text gives; any other number is null.

### C73 raw.pdf can be parsed again (partial)

Printed forms are texts of objects in the sense of C72; composition with C71. Refuted for streams with filters.

* `C73_printed` (Props/Layout.lean): Printed objects are read back as they are, except for a carriage return at the end of a stream's data; of objects with the same number the last one.
* `C73_raw_partial` (Props/Layout.lean): raw.pdf can be parsed again: when `Parse` returns without an error and each object it read prints as a text of itself, `Load` of raw.pdf succeeds and reading the number of an object gives that object again, up to the order of dictionary entries and a carriage return at the end of data.
* `C73_false` (Props/Layout.lean): is false for streams with filters: raw.pdf has the decoded data with the dictionary of the encoded data, so that the data is decoded once more when raw.pdf is read.

### C74 A document with incremental updates is read as it is meant (partial)

Documents as a grammar (`Spec.Document`), sections being tables or streams, the first two possibly those of a linearized document; induction over the updates for the chain of /Prev (`section_step`, from C24 for either kind) and for the words `xref` in `startxref`; then C25, C58, C59 and C72; offsets that lead nowhere as for C78. Refuted: the word `xref` in `startxref` is loaded as a section of its own.

* `C74_read_partial` (Props/Document.lean): A document with any number of incremental updates, not encrypted: `Load` succeeds whatever the password and the order in which maps are visited.
* `C74_meant_partial` (Props/Document.lean): (part: no first object of an update has a key /Encrypt or /Prev; no table takes one byte less than a multiple of 4096) When the sections of a document are right, a number is read as what the document means: the object of the newest update that lists it, and null when that update says it is free or no update lists it.
* `C74_false` (Props/Document.lean): is false for trailer keys that no trailer has: a document without /Encrypt in any trailer is refused as encrypted, because the dictionary of the first object after `startxref` is taken for a trailer.

### C75 The report on a document is about what the document means (partial)

C74 and C67 joined: loading and `GetObject` give the same for all bounds (`Lemmas.Deeper`), extraction returns (`Lemmas.Runs*`, for any class of dictionaries closed under what extraction follows), chains of references are those of the document (C15).

* `C75_means` (Props/Whole.lean): Every document means something, and only one thing.
* `C75_partial` (Props/Whole.lean): `Parse` returns without an error on a document, and reports on each object that the document means, and on no other object: on the object as it is meant, with references standing for what they stand for in the document.
* `C75_found_partial` (Props/Whole.lean): Every URI in a document is in urls.txt, with a line break after it; every script is in javascript.js.

### C76 An encrypted document is read as it is meant, with its user password only (partial)

Objects in the file and objects meant are related by encryption with an arbitrary MD5 (`Spec.Secret`); C74 read through that relation, C37, C38 and C42 for the keys, involution of RC4; the flag of each cross reference entry says whether the object is encrypted (`entry_flag`). The report as for C75.

* `C76_read_partial` (Props/Secret.lean): An encrypted document is read as it is meant with its user password: `Load` returns without an error, and every object is the object that the document means, with its strings and its stream decrypted.
* `C76_wrong` (Props/Secret.lean): With a password that is not the user password nothing is read: `Parse` returns the password error, and writes nothing.
* `C76_report_partial` (Props/Secret.lean): The report on an encrypted document, with its user password, is about what the document means, decrypted.

### C77 Encryption that is not supported is refused (proved)

Case analysis of the steps of `SetPassword` on the document loaded as for C74.

* `C77_unsupported` (Props/Secret.lean): A document whose encryption is not supported is refused, whatever the password: `Parse` returns the error for that, and writes nothing.
* `C77_incomplete` (Props/Secret.lean): A document without what is needed to check passwords is refused, whatever the password.

### C78 A document whose offsets are wrong is read as it is meant (partial)

The sections that the scans find, in the order of their places, do what the chain of /Prev does (`Sections.load`, `document_loads`); a lost offset changes nothing (`Lost.load`). Two documents with the same objects mean the same (`SameObjects.meant`). Refuted for wrong offsets that name an older section.

* `C78_meant_partial` (Props/Found.lean): (part: offsets that are wrong lead nowhere, see `C78_false`; no first object of an update has a key of the trailers or /Encrypt) A document whose `startxref` and /Prev offsets are wrong or missing, and whose tables may have wrong offsets, is read as it is meant.
* `C78_same_partial` (Props/Found.lean): (part) Two documents with the same objects whose sections list the same numbers as in use are read alike, whatever the offsets in them.
* `C78_false` (Props/Found.lean): is false for wrong offsets that lead somewhere: when `startxref` after an update has the offset of the section of the document before it, an object that the update deletes is read.

### C79 Numbers of any length are read with one correctly rounded step for each operation (proved)

IEEE 754 rounding by its definition (`Spec.Double`: nearest of all doubles, ties to even, overflow threshold); `roundNN_rounded`: the rounding function of the model satisfies it; uniqueness; induction over the digits; two-sided relative error bound.

* `C79_steps` (Props/Number.lean): A number with any digits, with or without sign, point and fraction: each digit is one correctly rounded step, and the number is read to its end.
* `C79_unique` (Props/Number.lean): The steps leave no choice: rounding has one result, and so has each number.
* `C79_error` (Props/Number.lean): A whole number of up to 308 digits is read as a finite number with a relative error of about 2^-53 for each of two steps for each digit.

### C80 Objects in object streams are read like other objects (partial)

Object streams as a specification (`Spec.Packed`); refuted for all documents: entries of type 2 are never followed (`C80_null`, from C74), and for a whole document with its report.

* `C80_null` (Props/Packed.lean): for all documents: an object in an object stream is read as null, whatever it is.
* `C80_false` (Props/Packed.lean): , for a whole document: the action of its catalog, a link, is in an object stream; it is read as null, and is not in the report.

### C81 A linearized document is read like any other (partial)

The chain of /Prev from the first section, after the sections that the scan finds; both parts are one revision (`Spec.firstTwo`); otherwise as for C74 and C78.

* `C81_read_partial` (Props/Linear.lean): (part: the first object of the second part has no key /Encrypt; no table takes one byte less than a multiple of 4096) In a linearized document all objects of both parts are read, and other numbers are null.
* `C81_same_partial` (Props/Linear.lean): (part: as above) A linearized document is read like a document with the same objects that is not.

### C82 The owner password opens an encrypted document (partial)

Algorithm 3 of the standard as a specification; refuted for all documents whose owner password is not also a user password (C76), and for a concrete one with MD5 and RC4 evaluated; partial: passwords with the same first 32 bytes.

* `C82_refused` (Props/Owner.lean): for every document with an owner password that is not also a user password: with it nothing is read, `Parse` returns the password error.
* `C82_false` (Props/Owner.lean): A document with the owner password `own3` and the user password `pw`: with the user password its URI is in the report, with the owner password `Parse` returns the password error and writes nothing.
* `C82_partial` (Props/Owner.lean): A document whose owner password and user password are the same (the first 32 bytes count), as in a document that is saved without an owner password, is read as it is meant with the owner password.

### C83 Objects hidden in hybrid-reference files are read (partial)

Hybrid files as a specification (`Spec.Hybrid`); refuted for all such files: the table is loaded last (C24) and /XRefStm is not read.

* `C83_null` (Props/Hybrid.lean): for all files: an object that the table of a hybrid file hides is read as null, whatever the cross reference stream says.
* `C83_false` (Props/Hybrid.lean): , for a whole file: the action of its catalog, a link, is listed by the cross reference stream that the trailer names, and is not in the report.

### C84 The text of every page is in contents.txt (partial)

From the report of C75 and C76: the text of each page is that of C45 in the fonts of C44, pages in the order of the page tree; a part of contents.txt because the lines of one dictionary are written together (`report_text`). With one page tree contents.txt is that text and nothing else (`report_exact`): what the other dictionaries write has no part in it.

* `C84_false` (Props/Drawn.lean): for an array of `TJ` with two strings: the page shows `AB`, and contents.txt has no `B`.
* `C84_exact_partial` (Props/Exact.lean): If a document has one page tree, contents.txt is the text that its pages show, in order, and nothing else.
* `C84_exact_secret_partial` (Props/Exact.lean): The same for encrypted documents, with the user password.
* `C84_order_partial` (Props/Pages.lean): The text shown by the pages of a document is in contents.txt, in the order of the pages.
* `C84_partial` (Props/Pages.lean): The text shown by each of the content streams of each page of a document is in contents.txt, whatever the other streams hold.
* `C84_secret_partial` (Props/Pages.lean): The same for encrypted documents, with the user password.

### C85 A file saved as a history of edits is read as it stands after the last edit (partial)

A writer of files as a specification (`Spec.Write`: objects, table, trailer, startxref, for each edit); by induction on the edits, what it writes is a document as in C74, with right tables, and means what is there after the last edit (`edits_document`, `edits_right`, `edits_means`). Then C74, C75 and, for raw.pdf as a whole, C102. Refuted for streams whose data ends in a carriage return, and for edits whose first object has a key /Encrypt.

* `C85_raw_partial` (Props/Endings.lean): raw.pdf has the objects that there are after the last edit, each once, and nothing else.
* `C85_false` (Props/Endings.lean): is false for streams whose data ends in a carriage return: it is read without it, whatever /Length says.
* `C85_encrypt_false` (Props/Endings.lean): is false for edits whose first object has a key /Encrypt: the file, which is not encrypted, is refused as encrypted.
* `C85_partial` (Props/Write.lean): A file written as a history of edits is loaded without an error, and every number is read as what it is after the last edit: the object (except for a carriage return at the end of a stream's data), or null when there is none.
* `C85_report_partial` (Props/Write.lean): `Parse` returns without an error on such a file, and raw.pdf has every object that there is after the last edit, with the entries of its dictionaries in some order.

### C86 Every file that a document embeds is in the output directory (partial)

From the report of C75: the names of the whole tree are those of its nodes one after the other (`Spec.NameDfs.blocks`), so values stay at odd places when each node has as many values as names; the hash in the file name decides the contents because hexadecimal is injective. Refuted for annotations: a document without trees of embedded files, actions and forms leaves no file (`report_nothing`).

* `C86_partial` (Props/Files.lean): Every file in the tree of embedded files of a document is in the output directory, under the MD5 of its data, and files.txt has a line with this MD5 and its name.
* `C86_secret_partial` (Props/Files.lean): The same for encrypted documents, with the user password.
* `C86_false` (Props/Files.lean): for files that are attached by an annotation: they are not in the output directory, and not in files.txt.

### C87 Every program that a launch action starts is in commands.txt (partial)

(commands.txt has nothing else: `reported_command`.) From the report of C75, for actions under /A, /OpenAction and /AA whose program is given by a file specification. Refuted for programs given by a string (`report_noCommand`).

* `C87_only_partial` (Props/Data.lean): commands.txt has exactly the programs that actions of the document start, and those of its file specifications with parameters.
* `C87_partial` (Props/Files.lean): Every program that an action of a document starts is in commands.txt with its parameters, when it is given by a file specification.
* `C87_false` (Props/Files.lean): for programs given by a string: commands.txt is empty.

### C88 urls.txt has exactly the URLs of the document (partial)

From the report of C75: every write to urls.txt comes from one of the places in `Spec.UrlIn` and the other way round (`url_reported`, `reported_url`). Refuted for file specifications whose /FS is a name, as in ISO 32000-1, because the code looks for a string.

* `C88_array_false` (Props/Annots.lean): for a link in an array of annotations that is an object of its own: urls.txt is empty.
* `C88_partial` (Props/Urls.lean): urls.txt has every URL of a document on a line of its own, and nothing else, when in its name trees names and values alternate.
* `C88_secret_partial` (Props/Urls.lean): The same for encrypted documents, with the user password.
* `C88_false` (Props/Urls.lean): for URLs given by a file specification as ISO 32000-1 has it: urls.txt is empty.

### C89 javascript.js has exactly the scripts of the document (partial)

From the report of C75: the writes to javascript.js are those of `Spec.ScriptIn`, except for references to things that are neither strings nor streams, which give empty lines.

* `C89_false` (Props/Annots.lean): for a script in an array of annotations that is an object of its own: javascript.js has nothing but empty lines.
* `C89_partial` (Props/Urls.lean): javascript.js has every script of a document, followed by a line break, and nothing else, except for empty lines.

### C90 The output directory and files.txt have exactly the files of the document (partial)

From the report of C75: every write to files.txt and every file comes from one of the places in `Spec.HoldsFile` and `Spec.NamesFile` and the other way round (`files_cases`, `fileReport_cases`, `holds_reported`, `names_reported`). Refuted for forms in an array given by reference.

* `C90_partial` (Props/Data.lean): The files of a document, and the data of its forms, are in the output directory under their MD5, and in files.txt; and nothing else is.
* `C90_secret_partial` (Props/Data.lean): The same for encrypted documents, with the user password.
* `C90_false` (Props/Data.lean): for the data of a form in an array that is given by reference: all files in the output directory are empty.

### C91 LZW data is read back (proved)

LZW encodings as a relation (`Spec.Lzw`: phrases of the table, one per code, the width given by the number of entries); induction over the encoding: the reader keeps the table of the encoder one entry behind. Every data has an encoding.

* `C91_readers` (Props/Lzw.lean): Both readers undo every LZW encoding, whatever follows the code for the end of data.
* `C91_exists` (Props/Lzw.lean): Every byte string has an encoding, and an encoding determines the byte string.
* `C91_decode` (Props/Lzw.lean): A stream with the filter LZWDecode is decoded to the data that was encoded, one code early unless /EarlyChange is 0, with prediction undone.
* `C91_plain` (Props/Lzw.lean): The same without prediction.

### C92 Flate data is read back (proved)

Compressed data as a relation (`Spec.Flate`, following the RFCs: canonical codes with Kraft sum 1, symbols, descriptions of codes, blocks, check sum); each function of the reader is shown to be a partial inverse of the part of the relation that it reads, in both directions.

* `C92_reader` (Props/Flate.lean): The reader undoes every compression of data that RFC 1950 and RFC 1951 allow, whatever follows the check sum.
* `C92_exact` (Props/Flate.lean): Only compressed data is read without an error (the second byte says that there is no preset dictionary).
* `C92_exists` (Props/Flate.lean): Every byte string can be compressed, and what is compressed determines it.
* `C92_decode` (Props/Flate.lean): A stream with the filter FlateDecode is decoded to the data that was compressed, with prediction undone.
* `C92_plain` (Props/Flate.lean): The same without prediction.

### C93 Streams encoded by several filters are decoded to their data (partial)

The encodings of each filter as a relation (`Spec.Coding`, built from those of C28-C32, C91 and C92) and chains of them; induction on the chain. `C93_object_partial` links it to the documents of the other theorems: there, a stream object stands for the data its filters encode.

* `C93_filter_partial` (Props/Coding.lean): One filter gives back what was encoded.
* `C93_chain_partial` (Props/Coding.lean): The filters in order give back the data.
* `C93_object_partial` (Props/Coding.lean): In the documents of the other theorems, a stream object stands for the data that its dictionary's filters encode.
* `C93_concrete` (Props/Coding.lean): The streams that Go's readers read.
* `C93_false` (Props/Coding.lean): for ASCII85 with a last group of one byte: `A` is decoded to `@`, by any chain that ends in this filter.
* `C93_predictor_false` (Props/Coding.lean): for rows with the Sub filter and pixels of three bytes, whatever was compressed how: reversing the prediction of two such pixels does not give them back.
* `C93_secret_partial` (Props/Exact.lean): In the encrypted documents of C76, a stream that is encoded by filters and then encrypted stands for the data.

### C94 Files with compressed streams are read as what was compressed (partial)

The writer of C85 with objects as they are stored (`Spec.Edit.Stored`) and the relation between a stored object and its data (`Spec.DataOf`, from C93); the file is a document as in C74 whose objects are the data. Then C74, C75 and C102. Refuted for encodings that end in a carriage return.

* `C94_raw_partial` (Props/Endings.lean): raw.pdf has the objects that there are after the last edit, each once, with the data that their streams encode, and nothing else.
* `C94_false` (Props/Endings.lean): is false for encodings that end in a carriage return: of the two bytes `A` and carriage return, as one run, only the first is read.
* `C94_read_partial` (Props/Stored.lean): A file written as a history of edits, with encoded streams: every number is read as the object after the last edit, with the data that its stream encodes.
* `C94_report_partial` (Props/Stored.lean): `Parse` returns without an error on such a file, and raw.pdf has every object that there is after the last edit, with the data that its stream encodes.

### C95 Text is written in UTF-8 (partial)

UTF-16BE and UTF-8 as functions on characters (`Spec.Unicode`); what C44 says of a text, with values in UTF-16BE. Refuted: the values are copied. Partial: the text is written in UTF-16BE.

* `C95_partial` (Props/Unicode.lean): Text shown in a font whose ToUnicode map gives characters for its codes is written in UTF-16BE, the encoding of the values in the map; when it begins with a character from U+0001 to U+07FF, this is not UTF-8.
* `C95_false` (Props/Unicode.lean): A is written as two bytes, so that contents.txt has a zero byte in front of it.

### C96 Line breaks in literal strings are read as line feeds (partial)

Literal strings as the standard has them (`Spec.StringText`), with the number of line breaks written with CR; by induction what is read has that many more CR bytes than what is meant. So it is right exactly when there are none.

* `C96_partial` (Props/Unicode.lean): A literal string is read to its end, and as the standard means it exactly when none of its line breaks is written with CR or CR LF, apart from those after a backslash.
* `C96_false` (Props/Unicode.lean): for line breaks written with CR LF.

### C97 Scripts given as text strings are written as text (partial)

Text strings as a relation (`Spec.TextString`), on the report of C89. Refuted for a document with a script in UTF-16; partial for ASCII.

* `C97_partial` (Props/Unicode.lean): Every script given as a text string of ASCII characters, one byte for each, is in javascript.js in UTF-8, followed by a line break.
* `C97_false` (Props/Unicode.lean): for scripts in UTF-16: they are copied with the byte order mark.

### C98 A number that no object of the file has is null (partial)

From what Load does to the table (C25, C26) and what GetObject reads at an offset (C58). Refuted for all files whose table lists the number with the offset of another object.

* `C98_partial` (Props/Numbers.lean): After `Load`, a number that no cross reference section lists and that no `n g obj` in the file has is read as null.
* `C98_wrong` (Props/Numbers.lean): for every file with a section that lists a number in use with the offset of another object, when no `n g obj` in the file has the number: it is read as that object, whatever the number `m` in its header.
* `C98_false` (Props/Numbers.lean): the file has no object with the number 2, but it is read as the object with the number 1.

### C99 Text of pages is shown in the fonts of their resources, own or inherited (partial)

The resources of page tree nodes, own or inherited (`Spec.ResourcesAt`). Refuted for a document whose resources are on the root of the page tree; partial, from C84, for pages with resources of their own or without any.

* `C99_secret_partial` (Props/Encoding.lean): The same for encrypted documents, with the user password.
* `C99_partial` (Props/Inherited.lean): Text is shown in the fonts of the page's resources if the page has resources of its own, or no node above it has any.
* `C99_false` (Props/Inherited.lean): for a page that has its resources from the node above it: its text in the fonts of these resources is `A`, and contents.txt has no `A`.

### C100 contents.txt has nothing but the text of pages (partial)

From the report of C75 and C76: every write to contents.txt is the text of a content stream of a page (`reported_text`), and reported pages are nodes of the page tree (`pages_node`, the converse of what C84 uses).

* `C100_partial` (Props/Inherited.lean): contents.txt has nothing but what content streams of the pages show, each in the fonts of the page's own resources.
* `C100_secret_partial` (Props/Inherited.lean): The same for encrypted documents, with the user password.

### C101 Text of forms that pages draw is extracted (partial)

Forms that pages draw as a relation (`Spec.Draws`). Refuted, from the exact content of contents.txt (C100), for all documents whose pages show no text of their own.

* `C101_wrong` (Props/Drawn.lean): for all documents whose pages show no text but that of the forms they draw: contents.txt is empty.
* `C101_false` (Props/Drawn.lean): for a document with a page that draws a form: the form shows `A`, and contents.txt is empty.

### C102 raw.pdf has every object of a document once and nothing else (partial)

From the reports of documents (C75, C76): no report on a value writes to raw.pdf, so raw.pdf is one printed object per part, and the parts are the objects meant, each once. Refuted for objects in object streams (the document of C80).

* `C102_false` (Props/Endings.lean): is false for objects in object streams: raw.pdf has no object 2, which the document has.
* `C102_partial` (Props/RawAll.lean): raw.pdf has every object of a document once, with its data decoded, in some order, with the entries of dictionaries in some order; and nothing else.
* `C102_secret_partial` (Props/RawAll.lean): The same for encrypted documents, with the user password: the objects are decrypted.

### C103 Text in fonts with an encoding of their own is extracted (partial)

Encodings as a specification (`Spec.differences`, `Spec.LetterFonts`); the text of a content stream depends only on what its fonts make of strings (`shows_mono`), and for the code these fonts have no entries (`letterFonts_page`). Then C84. Refuted, from the exact content of contents.txt, for all documents with such fonts and by a witness.

* `C103_partial` (Props/Encoding.lean): Text in fonts with an encoding and no character map is in contents.txt if the encoding gives letters the codes they have in ASCII.
* `C103_secret_partial` (Props/Encoding.lean): The same for encrypted documents, with the user password.
* `C103_wrong` (Props/Encoding.lean): for all documents where the fonts of all pages are of this kind: contents.txt has nothing but what the content streams show when every font is taken for the default font, whatever the encodings are.
* `C103_false` (Props/Encoding.lean): for a font where code 0 is the letter A: the page shows `A`, and contents.txt has no `A`.
