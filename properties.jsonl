{"id": "C01", "title": "Reading an object always terminates and makes progress", "statement": "From any position of any byte sequence, ReadObject (with no decryption or RC4 decryption) returns after finitely many steps without panicking; the read position never moves backwards, and it moves strictly forward unless ReadError (end of input) is returned, in which case the input is exhausted.", "quantifier": "every byte sequence, every start position, every buffering state of the reader", "why_tests_cant": "Hangs and crashes live in adversarial inputs (unclosed, nested, truncated tokens at every byte position); tests sample a dozen truncated files.", "anchors": ["pdf/parser.go:Parser.ReadObject", "pdf/parser.go:Parser.ReadArray", "pdf/parser.go:Parser.ReadDictionary", "pdf/parser.go:Parser.consumeWhitespace"]}
{"id": "C02", "title": "Literal strings are read back exactly", "statement": "For every byte string s, ReadString on '(' + s with each of '(' ')' '\\\\' backslash-escaped + ')' returns exactly s, leaves the reader just after the closing parenthesis and logs nothing. The same holds for 3-digit octal escapes of any byte, for the named escapes, for escaped line breaks (which contribute nothing) and for unescaped balanced parentheses.", "quantifier": "every byte string, every mix of escape forms, every continuation of the file", "why_tests_cant": "256^n strings and every escape combination; tests check one literal.", "anchors": ["pdf/parser.go:Parser.ReadString"]}
{"id": "C03", "title": "Hex strings decode digit pairs, ignoring everything else", "statement": "ReadHexString returns the bytes given by the hex digits between '<' and '>' taken two at a time (a missing last digit counts as 0); white space, comments and non-hex bytes do not contribute; each non-hex byte logs 'invalid hex string character'; a missing '>' logs 'unclosed hex string'. In particular the upper- or lower-case hex encoding of any byte string is read back as that byte string.", "quantifier": "every byte sequence between the markers, and its absence", "why_tests_cant": "Odd lengths, separators and junk can be placed at every position.", "anchors": ["pdf/parser.go:Parser.ReadHexString", "pdf/utility.go:IsHex"]}
{"id": "C04", "title": "Names are read back exactly", "statement": "For every byte string s, ReadName on '/' + s with each non-regular byte (and '#') written as #xx returns exactly s and leaves the reader before the first delimiter or white-space byte following it.", "quantifier": "every byte string, every continuation starting with a delimiter, white space or end of file", "why_tests_cant": "All 256 byte values at every position and every continuation.", "anchors": ["pdf/parser.go:Parser.ReadName"]}
{"id": "C05", "title": "Integers are exact", "statement": "A decimal integer literal of magnitude below 2^53, with optional sign, is read by ReadNumber as exactly that integer, and GetInt/GetInt64 return it; ReadInt/ReadInt64 return the value of the digit run modulo 2^64 as a signed 64-bit integer.", "quantifier": "every digit string", "why_tests_cant": "2^53 values and unbounded numbers of leading zeros; overflow lies outside any sample.", "anchors": ["pdf/parser.go:Parser.ReadNumber", "pdf/parser.go:Parser.ReadInt64", "pdf/number.go", "pdf/dictionary.go:Dictionary.GetInt"]}
{"id": "C06", "title": "Decimal fractions have their decimal value", "statement": "A literal such as 1.25 is read by ReadNumber as the number it denotes (up to double rounding).", "quantifier": "every decimal literal with a fractional part", "why_tests_cant": "Every number of fractional digits; no test reads a fraction.", "anchors": ["pdf/parser.go:Parser.ReadNumber"]}
{"id": "C07", "title": "Every well-formed object text is parsed to the object it denotes", "statement": "For every PDF object built from booleans, null, integers, names, strings, hex strings, references, arrays and dictionaries, and every legal spelling of it (any white space and comments between tokens, any escape forms), ReadObject returns that object, stops right after its text and logs no abnormality.", "quantifier": "every object of any depth and size, every legal spelling, every continuation that does not extend the last token", "why_tests_cant": "Unbounded nesting and spelling freedom.", "anchors": ["pdf/parser.go:Parser.ReadObject", "pdf/parser.go:Parser.ReadArray", "pdf/parser.go:Parser.ReadDictionary"]}
{"id": "C08", "title": "raw.pdf re-parses to the same objects", "statement": "The text that Object.String() produces for an object value, as written to raw.pdf, is read by ReadObject as the same object value.", "quantifier": "every object value", "why_tests_cant": "Quoting and number formatting must be right for every string, name and number.", "anchors": ["pdf/object.go:IndirectObject.String", "pdf/string.go", "pdf/name.go", "pdf/number.go", "pdf/array.go:Array.String", "pdf/dictionary.go:Dictionary.String"]}
{"id": "C09", "title": "White space and comments between tokens are insignificant", "statement": "Inserting any sequence of white-space bytes and complete comments in front of a token changes neither what ReadObject, ReadInt, ReadKeyword, ReadName, ReadString, ReadHexString, ReadArray or ReadNumber return nor what they log, and only shifts the final position by the inserted length.", "quantifier": "every inserted sequence, every following input", "why_tests_cant": "Unbounded choice of separators.", "anchors": ["pdf/parser.go:Parser.consumeWhitespace", "pdf/parser.go:Parser.consumeComment"]}
{"id": "C10", "title": "Only documented abnormalities are logged", "statement": "Every line the parser writes to errors.txt is one of the fourteen messages listed in README.md, whatever the input file.", "quantifier": "every input file and every reading history", "why_tests_cant": "A claim about all log lines on all inputs.", "anchors": ["pdf/parser.go:Parser.log_error", "pdf/errors.go", "README.md"]}
{"id": "C11", "title": "Unterminated constructs are reported and keep what was read", "statement": "If the input ends inside a string, hex string, array, dictionary or stream, the read terminates, returns everything read so far, and logs the corresponding 'unclosed ...' message.", "quantifier": "every truncation point of every input", "why_tests_cant": "Each of the unboundedly many truncation points.", "anchors": ["pdf/parser.go:Parser.ReadString", "pdf/parser.go:Parser.ReadArray", "pdf/parser.go:Parser.ReadDictionary", "pdf/parser.go:Parser.ReadHexString", "pdf/parser.go:Parser.ReadStream"]}
{"id": "C12", "title": "Dictionaries: the last value of a key wins and bad keys are skipped", "statement": "ReadDictionary returns a map in which each key holds the value of its last occurrence; objects in key position that are not names are logged as 'invalid dictionary key type' and skipped without disturbing the remaining pairs.", "quantifier": "every sequence of pairs and stray objects", "why_tests_cant": "Unbounded sequences.", "anchors": ["pdf/parser.go:Parser.ReadDictionary"]}
{"id": "C13", "title": "Looking ahead for a reference never loses input", "statement": "When ReadObject returns a number, the reader is positioned immediately after the number's text, whatever follows; it returns a reference exactly when the number is followed by an unsigned integer and the keyword R.", "quantifier": "every number text and every continuation", "why_tests_cant": "Every continuation, including end of file and partial references.", "anchors": ["pdf/parser.go:Parser.ReadObject", "pdf/parser.go:Parser.CurrentOffset", "pdf/parser.go:Parser.Seek"]}
{"id": "C14", "title": "Resolving a reference does not disturb the reader", "statement": "Reference.Resolve and Reference.ResolveStream leave the parser's current offset exactly where it was, so callers may resolve at any point between reads.", "quantifier": "every file, cross-reference map, reference and reader position", "why_tests_cant": "Every nesting of resolutions.", "anchors": ["pdf/reference.go:Reference.Resolve", "pdf/reference.go:Reference.ResolveStream", "pdf/parser.go:Parser.Seek"]}
{"id": "C15", "title": "Reference chains end; cycles give null", "statement": "Resolving a reference follows references to references until a non-reference value is found and returns it; a chain that comes back to an object already visited yields null; it never loops.", "quantifier": "every chain length and cycle shape", "why_tests_cant": "Unbounded chains and cycles; tests check a self loop.", "anchors": ["pdf/reference.go:Reference.resolve"]}
{"id": "C16", "title": "Unknown, free and compressed objects are null", "statement": "GetObject on a number with no cross-reference entry, or whose entry is not of the in-use type, returns that number with value null, generation 0 and no stream, without reading the file.", "quantifier": "every number and every cross-reference map", "why_tests_cant": "Any map, any number.", "anchors": ["pdf/parser.go:Parser.GetObject"]}
{"id": "C17", "title": "Typed getters are total and type-faithful", "statement": "Every Get* method of Dictionary and Array returns (value, true) exactly when the (resolved) entry exists and has that type, and (zero value, false) otherwise; indices outside the array, including negative ones, give false and never panic. GetInt gives the number without its fraction, or the least int if that does not fit.", "quantifier": "every dictionary/array, every key/index", "why_tests_cant": "All indices and all types.", "anchors": ["pdf/dictionary.go", "pdf/array.go"]}
{"id": "C18", "title": "A stream is the data up to endstream without its final line break", "statement": "The undecoded stream data is exactly the bytes between the line break after the stream keyword and the first following 'endstream', minus one trailing line break (CR LF, LF or CR); if there is none, all bytes to the end of the file, and 'unclosed stream' is logged.", "quantifier": "every data content, every line break convention", "why_tests_cant": "Every data content, including partial occurrences of the marker.", "anchors": ["pdf/parser.go:Parser.ReadStream"]}
{"id": "C19", "title": "Stream extraction does not depend on the reader's buffering", "statement": "The data returned for a stream depends only on the file's bytes and the stream's position, not on how much of the file the buffered reader happens to hold when the stream starts.", "quantifier": "every distance between the last seek and the start of the stream data", "why_tests_cant": "Needs the 4096-byte buffer boundary to fall within 8 bytes of the data start.", "anchors": ["pdf/parser.go:Parser.ReadStream", "pdf/parser.go:Parser.ReadDictionary"]}
{"id": "C20", "title": "GetObject terminates on every file", "statement": "GetObject returns for every file and every cross-reference map.", "quantifier": "every file, in particular those whose stream dictionaries refer to themselves", "why_tests_cant": "Non-termination on a self-referential dictionary entry is not reachable by sampling ordinary files.", "anchors": ["pdf/parser.go:Parser.GetObject", "pdf/reference.go"]}
{"id": "C21", "title": "Page tree traversal visits every reachable page once and terminates", "statement": "GetPageTree returns the root followed by every dictionary reachable through references in Kids arrays, in depth-first order, resolving each object number at most once, and terminates on cyclic trees.", "quantifier": "every object graph", "why_tests_cant": "Cyclic and shared graphs of any size.", "anchors": ["pdf/dictionary.go:Dictionary.ResolveKids", "pdf/dictionary.go:Dictionary.GetPageTree"]}
{"id": "C22", "title": "Name tree traversal terminates", "statement": "GetNameTreeMap returns for every object graph.", "quantifier": "every object graph", "why_tests_cant": "Cycles through indirect Kids arrays.", "anchors": ["pdf/dictionary.go:Dictionary.getNameTreeMap"]}
{"id": "C23", "title": "Following Prev links terminates", "statement": "Loading a cross-reference section follows Prev links, loading every offset at most once per chain, and terminates on cyclic Prev chains.", "quantifier": "every file", "why_tests_cant": "Cycles of any length; tests have one of length two.", "anchors": ["pdf/parser.go:Parser.loadXref", "pdf/parser.go:Parser.loadXrefTable", "pdf/parser.go:Parser.loadXrefStream"]}
{"id": "C24", "title": "Newer cross-reference sections take precedence", "statement": "After loading a section, each object number listed in it has that section's entry; object numbers not listed keep the entry obtained from the Prev chain; trailer keys likewise. The section at startxref is loaded last.", "quantifier": "every chain of sections", "why_tests_cant": "Unbounded chains and overlaps.", "anchors": ["pdf/parser.go:Parser.Load", "pdf/parser.go:Parser.loadXrefTable", "pdf/parser.go:Parser.loadXrefStream"]}
{"id": "C25", "title": "Repair keeps good entries and fixes bad ones", "statement": "When Load finishes, an entry that pointed at the header of its own object still does so at the same offset, and an entry that did not point at its object's header has been redirected to the header found by scanning the file.", "quantifier": "every file and every cross-reference map", "why_tests_cant": "Needs every combination of entry and header.", "anchors": ["pdf/parser.go:Parser.Load"]}
{"id": "C26", "title": "Every object found by scanning is known after Load", "statement": "After Load, every object number for which scanning found an 'n g obj' marker has a cross-reference entry; one that was missing from all cross-reference sections points at the last such marker in the file, has its generation and is in use.", "quantifier": "every file", "why_tests_cant": "Every file content.", "anchors": ["pdf/parser.go:Parser.Load", "pdf/parser.go:Parser.findObjects"]}
{"id": "C27", "title": "Cross-reference stream fields are big-endian integers", "statement": "ReadInt64 on width bytes returns the big-endian value of the next width bytes (for width at most 7 exactly; in general modulo 2^64), consumes exactly these, and reports failure when fewer remain; no width makes it panic.", "quantifier": "every width and every data", "why_tests_cant": "Every width, including 0, negative and > 8.", "anchors": ["pdf/utility.go:ReadInt64", "pdf/parser.go:Parser.loadXrefStream"]}
{"id": "C28", "title": "ASCIIHexDecode inverts hex encoding", "statement": "For every byte string, ASCIIHexDecode of its hex encoding, in any letter case, with white space inserted anywhere, with or without the '>' end marker and whatever follows it, is the byte string.", "quantifier": "every byte string and every spelling", "why_tests_cant": "Unbounded data and white space placement.", "anchors": ["pdf/filters.go:ASCIIHexDecode"]}
{"id": "C29", "title": "ASCII85Decode inverts ASCII base-85 encoding", "statement": "For every byte string, ASCII85Decode of its standard base-85 encoding (with 'z' for zero groups, white space anywhere, '~>' end marker) is the byte string.", "quantifier": "every byte string, including lengths that are not multiples of 4", "why_tests_cant": "Partial final groups have 2^24 contents each; the test's only one was produced by a non-standard encoder.", "anchors": ["pdf/filters.go:ASCII85Decode"]}
{"id": "C30", "title": "RunLengthDecode inverts run-length encoding", "statement": "For every byte string and every way of splitting it into literal runs (1..128 bytes) and repeat runs (2..128 copies), RunLengthDecode of the corresponding encoding, with or without the end marker and whatever follows it, is the byte string; on any input the output is at most 64 times as long as the input, rounded up to whole runs.", "quantifier": "every byte string, every segmentation, every malformed input", "why_tests_cant": "Unbounded segmentations.", "anchors": ["pdf/filters.go:RunLengthDecode"]}
{"id": "C31", "title": "PNG prediction is undone", "statement": "For every data, row width and per-row choice of the None, Sub, Up, Average and Paeth algorithms, ReversePredictor (Predictor 15; or 10..14 when all rows use that algorithm) of the PNG-filtered rows is the data.", "quantifier": "every data, every number of columns, colors and bits per component, every sequence of row algorithms", "why_tests_cant": "Unbounded data and row sequences; the test uses one row of width 12.", "anchors": ["pdf/filters.go:ReversePredictor"]}
{"id": "C32", "title": "TIFF prediction is undone", "statement": "For every data made of whole rows and every 1..16 bits per component, ReversePredictor with Predictor 2 of horizontally differenced data is the data.", "quantifier": "every data, colors, columns and bits per component", "why_tests_cant": "Sub-byte components, component wrap-around and row padding in all combinations.", "anchors": ["pdf/filters.go:ReversePredictor", "pdf/utility.go:GetBits", "pdf/utility.go:SetBits"]}
{"id": "C33", "title": "Filters compose in the order listed; unknown ones are transparent", "statement": "The decoded stream is obtained by applying the listed filters first to last, each with the decode parameters at the same index; unsupported filter names and empty data pass through unchanged.", "quantifier": "every filter list and every data", "why_tests_cant": "Lists of any length.", "anchors": ["pdf/parser.go:Parser.ReadStream", "pdf/filters.go:DecodeStream"]}
{"id": "C34", "title": "Decoding never panics", "statement": "DecodeStream returns for every filter name, every data and every decode parameters.", "quantifier": "every parameter values, including huge and negative ones", "why_tests_cant": "Integer overflow in the predictor parameters.", "anchors": ["pdf/filters.go:DecodeStream", "pdf/filters.go:ReversePredictor", "pdf/utility.go:GetBits"]}
{"id": "C35", "title": "RC4-encrypted strings and streams decrypt to the original", "statement": "If a string or stream was encrypted with RC4 under the object's key, what ReadString/ReadHexString/ReadStream return is the plaintext; decrypting keeps the length.", "quantifier": "every key and every plaintext", "why_tests_cant": "All keys and data.", "anchors": ["pdf/encryption.go:DecryptorRC4.Decrypt", "pdf/parser.go:Parser.ReadString"]}
{"id": "C36", "title": "AES-encrypted data decrypts to the original", "statement": "If data was encrypted with AESV2 (random IV followed by the CBC encryption of the padded plaintext), Decrypt yields the plaintext.", "quantifier": "every key, IV and plaintext", "why_tests_cant": "All data lengths; no test has an AES file.", "anchors": ["pdf/encryption.go:DecryptorAES.Decrypt"]}
{"id": "C37", "title": "Per-object keys follow the PDF algorithm", "statement": "The decryptor for object (n, g) uses the first min(len+5,16) bytes of MD5(key || low 3 bytes of n || low 2 bytes of g [|| 'sAlT' for AES]), both little-endian; it depends on nothing else.", "quantifier": "every key, object number and generation", "why_tests_cant": "Every n and g, including those beyond 24/16 bits.", "anchors": ["pdf/encryption.go:CryptFilterRC4.NewDecryptor", "pdf/encryption.go:CryptFilterAES.NewDecryptor"]}
{"id": "C38", "title": "The right user password is accepted and a wrong one refused", "statement": "SetPassword succeeds exactly when the U entry (its first 16 bytes for revision 3 and 4) equals the value the PDF standard computes from the password, O, P, the file ID and EncryptMetadata; otherwise it returns 'incorrect password'.", "quantifier": "every password and every encryption dictionary", "why_tests_cant": "All passwords and dictionaries.", "anchors": ["pdf/encryption.go:SecurityHandler.Init", "pdf/encryption.go:SecurityHandler.computeEncryptionKey"]}
{"id": "C39", "title": "A failed password leaves the handler as it was", "statement": "When SetPassword returns an error, the filters used to decrypt strings, streams and embedded files, and the table of named crypt filters, are unchanged.", "quantifier": "every history of SetPassword calls", "why_tests_cant": "Every failure point.", "anchors": ["pdf/encryption.go:SecurityHandler.Init", "pdf/parser.go:Parser.SetPassword"]}
{"id": "C40", "title": "Selecting the password never panics", "statement": "SetPassword returns a value (nil or an error) for every trailer.", "quantifier": "every encryption dictionary", "why_tests_cant": "Slice bounds depend on lengths taken from the file.", "anchors": ["pdf/encryption.go:SecurityHandler.Init", "pdf/encryption.go:SecurityHandler.computeEncryptionKey"]}
{"id": "C41", "title": "Only the first 32 password bytes matter", "statement": "Two passwords that agree on their first 32 bytes give the same SetPassword result and the same decryption.", "quantifier": "every pair of passwords", "why_tests_cant": "Unbounded passwords.", "anchors": ["pdf/encryption.go:SecurityHandler.computeEncryptionKey"]}
{"id": "C42", "title": "The crypt filter for a stream is the one the file selects", "statement": "Streams use StmF, strings StrF and embedded file streams EFF (each defaulting as the standard says); a leading Crypt filter overrides by name and is removed from the filter list with its parameters; cross-reference streams and an indirect encryption dictionary are never decrypted.", "quantifier": "every encryption dictionary and stream dictionary", "why_tests_cant": "Combinations of filters and overrides.", "anchors": ["pdf/parser.go:Parser.GetObject", "pdf/encryption.go:SecurityHandler.Init", "pdf/parser.go:Parser.Load"]}
{"id": "C43", "title": "Text decoding splits into fixed-width codes", "statement": "Font.Decode terminates and maps the text code by code: each Width-byte code is replaced by its ToUnicode value or kept, a trailing partial code is dropped, and decoding a concatenation at a code boundary is the concatenation of the decodings; with the default font it is the identity. Width is at least 1 for every ToUnicode stream.", "quantifier": "every text and every ToUnicode stream", "why_tests_cant": "A zero width would loop forever; needs an invariant over all CMap contents.", "anchors": ["pdf/font.go:Font.Decode", "pdf/font.go:NewFont"]}
{"id": "C44", "title": "bfrange maps consecutive codes to consecutive values", "statement": "After 'n beginbfrange <lo> <hi> <dst>', code lo+k decodes to dst+k; loading a CMap terminates.", "quantifier": "every range", "why_tests_cant": "All ranges.", "anchors": ["pdf/font.go:NewFont"]}
{"id": "C45", "title": "Text shown by Tj, ' and \" inside BT..ET is extracted in order", "statement": "For every content stream made of well-formed text blocks, contents.txt receives exactly the decoded operand of each show operator inside BT..ET, one line each, in order; nothing outside text blocks is written.", "quantifier": "every content stream", "why_tests_cant": "Unbounded streams.", "anchors": ["pdf/page.go:Page.extract"]}
{"id": "C46", "title": "Text shown by TJ contains every string of the array", "statement": "For a TJ operator every string element of its array contributes to the extracted line, in order.", "quantifier": "every TJ array", "why_tests_cant": "Any interleaving of strings and adjustments.", "anchors": ["pdf/page.go:Page.extract"]}
{"id": "C47", "title": "Every JavaScript, URI and action entry is extracted", "statement": "For every object of the file, every dictionary nested directly in it at any depth that has a JS string contributes that string to javascript.js, and one with a URI string contributes it to urls.txt.", "quantifier": "every object and nesting depth", "why_tests_cant": "Nesting at any depth is how malicious content is hidden.", "anchors": ["pdf/object.go:extract"]}
{"id": "C48", "title": "File and action extraction follows the documented table", "statement": "For each action/file specification: FS=URL writes only urls.txt; an embedded file is dumped under its MD5 and listed in files.txt with that hash; other files are listed with the all-zero hash; launch actions and parameterised files add a commands.txt line.", "quantifier": "every file specification dictionary", "why_tests_cant": "All combinations of keys.", "anchors": ["pdf/file.go:File.Extract", "pdf/action.go:Action.Extract", "pdf/output.go:Output.DumpFile"]}
{"id": "C49", "title": "Results do not depend on map iteration order", "statement": "Whatever order Go iterates dictionaries and the cross-reference map in, Parse writes the same multiset of lines to each of commands, files, javascript, contents and urls, and the same dumped files.", "quantifier": "every iteration order", "why_tests_cant": "Go randomises the order on every run.", "anchors": ["pdf/pdf.go:Parse", "pdf/object.go:extract", "pdf/dictionary.go:Dictionary.String"]}
{"id": "C50", "title": "Parse on an unreadable input changes nothing", "statement": "If the input file cannot be opened, Parse returns an error and does not touch the output directory; on success the output directory contains exactly the seven report files plus dumped files.", "quantifier": "every file system state", "why_tests_cant": "All prior contents of the output directory.", "anchors": ["pdf/pdf.go:Parse", "pdf/output.go:NewOutput"]}
{"id": "C51", "title": "Parse works as a library call", "statement": "The documented library call pdf.Parse(input, password, dir) completes without panicking when the input is a readable PDF.", "quantifier": "every input and process state", "why_tests_cant": "Depends on a package variable that only the command-line tool sets.", "anchors": ["pdf/logger.go:Debug", "pdf/pdf.go:Parse", "README.md"]}
{"id": "C52", "title": "The command-line tool never overwrites without -f", "statement": "If the output path exists and -f was not given, the tool leaves the file system unchanged.", "quantifier": "every argument list and file system state", "why_tests_cant": "All states.", "anchors": ["main.go:main", "pdf/output.go:NewOutput"]}
{"id": "C53", "title": "All report files are closed", "statement": "When Parse returns, every report file it opened has been closed exactly once.", "quantifier": "every outcome, including failure to create any of the files", "why_tests_cant": "Every failure point in the creation sequence.", "anchors": ["pdf/output.go:Output.Close", "pdf/pdf.go:Parse"]}
{"id": "C54", "title": "Dumped files are content-addressed", "statement": "After any sequence of dumps, the file named by a hash in files.txt (other than the zero hash) exists and holds data whose MD5 is that hash; every dump adds exactly one manifest line.", "quantifier": "every sequence of dumps", "why_tests_cant": "Unbounded histories.", "anchors": ["pdf/output.go:Output.DumpFile"]}
{"id": "C55", "title": "The trailer is found whatever the table's length", "statement": "After the entries of a cross-reference table, the trailer dictionary is read whatever the distance from the start of the table.", "quantifier": "every table length", "why_tests_cant": "Needs the two bytes '<<' to straddle a 4096-byte buffer boundary.", "anchors": ["pdf/parser.go:Parser.loadXrefTable", "pdf/parser.go:Parser.ReadDictionary"]}
{"id": "C56", "title": "GetBits and SetBits are inverse bit-field accessors", "statement": "For 1..16 bits at any position inside the data, GetBits after SetBits returns the low n bits of the value written; SetBits changes no other bit.", "quantifier": "every data, position, width and value", "why_tests_cant": "All alignments.", "anchors": ["pdf/utility.go:GetBits", "pdf/utility.go:SetBits"]}
{"id": "C57", "title": "Reading an object depends only on the unread bytes", "statement": "What ReadObject returns, what it logs and how many bytes it reads depend only on the bytes that are still unread: not on the bytes before them, on how much of the file happens to be in the read buffer, or on which operation was performed last.", "quantifier": "every pair of files and reader states with the same unread bytes, every decryptor", "why_tests_cant": "Buffer boundaries can fall at any byte of any token.", "anchors": ["pdf/parser.go:Parser.ReadObject", "pdf/parser.go:Parser.consumeWhitespace"]}
{"id": "C58", "title": "GetObject returns what is written at the entry's offset", "statement": "For an in-use cross-reference entry whose offset holds `N G obj`, a value in any spelling and no `stream` keyword after it, GetObject returns the number asked for, the generation of the entry, the value with its strings decrypted, and no stream; it logs exactly the messages of the value.", "quantifier": "every file, entry, spelling of header, separators and value, decryption settings", "why_tests_cant": "Any text of any value at any offset.", "anchors": ["pdf/parser.go:Parser.GetObject", "pdf/parser.go:Parser.ReadObjectHeader"]}
{"id": "C59", "title": "GetObject returns the decoded stream", "statement": "For an in-use entry whose offset holds `N G obj`, a dictionary, `stream`, data and `endstream`, GetObject returns the dictionary and as stream the data up to `endstream` without its final line break, decrypted, and passed through the filters named in the dictionary in order with their parameters.", "quantifier": "every file, entry, dictionary, data, filter list and parameters", "why_tests_cant": "Any data, any filter chain.", "anchors": ["pdf/parser.go:Parser.GetObject", "pdf/parser.go:Parser.ReadStream"]}
{"id": "C60", "title": "Cross-reference stream without a type column", "statement": "In a cross-reference stream whose W array starts with 0 every entry has type 1 (in use), the default that the PDF specification gives for a missing first column, so GetObject finds the objects that it lists.", "quantifier": "every cross-reference stream with W[0] = 0", "why_tests_cant": "Producers rarely omit the column, so sample files do not show that the default is missing; the claim is about every such stream.", "anchors": ["pdf/parser.go:Parser.loadXrefStream", "pdf/utility.go:ReadInt64"]}
{"id": "C61", "title": "Load returns on every file", "statement": "Load returns (with or without an error) on every file.", "quantifier": "every file and password", "why_tests_cant": "Termination over all files, including cyclic Prev chains and streams that refer to themselves, cannot be tested.", "anchors": ["pdf/parser.go:Parser.Load", "pdf/parser.go:Parser.GetObject"]}
{"id": "C62", "title": "A report file that cannot be created stops the run cleanly", "statement": "If one of the seven report files cannot be created, Parse returns that error without extracting anything, creates no further file, and closes the input and the report files created before it.", "quantifier": "every input file and every report file whose creation may fail", "why_tests_cant": "Tests do not provoke failures of os.Create for each of the files in turn.", "anchors": ["pdf/output.go:NewOutput", "pdf/output.go:Output.Close", "pdf/pdf.go:Parse"]}
{"id": "C63", "title": "A name tree is listed completely", "statement": "When GetNameTreeMap returns, it lists the Names arrays of the root and of every node below it, in the order of a depth-first search through the Kids arrays, and nothing else; a node given by reference is visited once however often it is referred to.", "quantifier": "every dictionary, every key and every graph of objects, cyclic or not", "why_tests_cant": "Graphs of objects with shared and cyclic references are unbounded; tests cover a few trees.", "anchors": ["pdf/dictionary.go:Dictionary.GetNameTreeMap", "pdf/dictionary.go:Dictionary.getNameTreeMap"]}
{"id": "C64", "title": "The data of a form is extracted", "statement": "If a dictionary has an entry XFA that stands for a stream or an array of streams, directly or by reference, the data of the stream, or of the streams one after the other, is written to the file named by its MD5 and listed as form.xml; without such an entry nothing is written.", "quantifier": "every dictionary and every graph of objects", "why_tests_cant": "The entry may be given in many ways, and streams and arrays are unbounded.", "anchors": ["pdf/object.go:extract", "pdf/dictionary.go:Dictionary.GetStream", "pdf/output.go:Output.DumpFile"]}
{"id": "C65", "title": "The name trees of embedded files and URLs are reported in order", "statement": "Every value in the name tree EmbeddedFiles is reported, as a file name with the all-zero hash or as a file specification, and every name in the name tree URLS is added to urls.txt, in the order of the trees and nothing else.", "quantifier": "every name tree, of even or odd length, with values given directly or by reference", "why_tests_cant": "Trees are unbounded, and an off-by-one in the pairing shows only for some lengths.", "anchors": ["pdf/object.go:extract", "pdf/dictionary.go:Dictionary.GetNameTreeMap"]}
{"id": "C66", "title": "All actions of a dictionary are reported", "statement": "What is reported on the actions of a dictionary is what is reported on the action under A, the one under OpenAction, and every one in the dictionary under AA, the latter in some order, each once.", "quantifier": "every dictionary and every order of map iteration", "why_tests_cant": "Maps are iterated in random order and have any number of entries.", "anchors": ["pdf/object.go:extract", "pdf/action.go:Action.Extract"]}
{"id": "C67", "title": "The report is the sum of what the dictionaries of the file say", "statement": "When Parse returns without error, the files of the report hold, for each object in use, once and in some order, what is reported on each dictionary inside it, once and in some order, followed by the object itself in raw.pdf, and nothing else; what is reported on a dictionary is determined by its entries and by the values and streams that its references stand for.", "quantifier": "every input file, password and order of map iteration", "why_tests_cant": "It is a statement about every document and every iteration order.", "anchors": ["pdf/pdf.go:Parse", "pdf/object.go:extract", "pdf/object.go:IndirectObject.Extract"]}
{"id": "C68", "title": "The text of a page covers all its streams of content", "statement": "The text written for a page is the text of every stream that its entry Contents stands for: a stream, or an array of streams, given directly or by reference.", "quantifier": "every page and every graph of objects", "why_tests_cant": "The entry may be given in many ways, and arrays are unbounded.", "anchors": ["pdf/page.go:Page.Extract", "pdf/dictionary.go:Dictionary.GetStream"]}
{"id": "C69", "title": "The verbose flag changes only what is printed", "statement": "Two runs that differ only in -v make the same calls to the file system, end the same way, and write the same report.", "quantifier": "every input file, password, file system state and order of map iteration", "why_tests_cant": "Debug calls are spread over the parser, also on paths that only malformed or encrypted files reach.", "anchors": ["main.go:init", "pdf/logger.go:Debug", "pdf/pdf.go:Parse"]}
{"id": "C70", "title": "Parse returns on every readable file", "statement": "A call of Parse on a file that can be read, with an output directory that can be written, returns after finitely many steps.", "quantifier": "every input file, password and order of map iteration", "why_tests_cant": "Non-termination needs particular graphs of references; a test that does not return says nothing on the others.", "anchors": ["pdf/pdf.go:Parse", "pdf/parser.go:Load", "pdf/reference.go:resolve", "pdf/object.go:Extract"]}
{"id": "C71", "title": "raw.pdf holds every object in use exactly once", "statement": "When Parse returns without an error, raw.pdf is the text of the objects with the numbers that are in use according to the cross reference, each exactly once and nothing else; only the order of the objects and of the entries of their dictionaries is left open.", "quantifier": "every input file, password and order of map iteration", "why_tests_cant": "The set of objects depends on sections, repair and filters of arbitrary files, and the order on Go's random map iteration.", "anchors": ["pdf/pdf.go:Parse", "pdf/object.go:String", "pdf/dictionary.go:String", "pdf/parser.go:Load"]}
{"id": "C72", "title": "Without a cross reference, every object of the file is still found", "statement": "Loading a file that is made up of objects (numbers, values in any spelling, streams, comments and white space between the parts) and has no cross reference section succeeds for every password and every order of map iteration. Reading an object number then gives the last object of the file with that number, value and decoded data included, and exactly the messages its text gives; any other number reads as null.", "quantifier": "every list of objects with their texts, every head and tail of the file without the word obj (in the objects it may occur, but nothing that looks like a header), every password and order", "why_tests_cant": "The file is scanned with a regular expression that can also match inside comments, strings and data; only a proof rules that out for all texts.", "anchors": ["pdf/parser.go:Load", "pdf/parser.go:findObjects", "pdf/parser.go:GetObject"]}
{"id": "C73", "title": "raw.pdf can be parsed again", "statement": "Parsing raw.pdf gives each object that was written to it again: same number, generation, value up to the order of dictionary entries, and data.", "quantifier": "every input file for which Parse returns without an error", "why_tests_cant": "It relates two runs on files of arbitrary content.", "anchors": ["pdf/pdf.go:Parse", "pdf/object.go:String", "pdf/parser.go:Load", "pdf/parser.go:GetObject"]}
{"id": "C74", "title": "A document with incremental updates is read as it is meant", "statement": "Loading a document that consists of a head, objects, a cross reference table with a trailer or a cross reference stream, and startxref, followed by any number of incremental updates of that form (tables and streams in any mixture), where the first part may be linearized, succeeds when no trailer has /Encrypt. Each trailer key has its newest value. When the sections are right, a number that no object stream has (C80) reads as the object of the newest update that lists it, with its value, data and messages, and as null when that update says it is free or when none lists it; when they are not, as the last object with that number in the file.", "quantifier": "every document with any number of updates, every spelling of objects, tables, trailers and streams, every password and order of map iteration", "why_tests_cant": "It ranges over all histories of updates and all spellings; the code finds sections by searching for the word xref and objects by searching for obj, so that any byte of the file could interfere.", "anchors": ["pdf/parser.go:Load", "pdf/parser.go:loadXref", "pdf/parser.go:GetObject", "pdf/parser.go:findObjects"]}
{"id": "C75", "title": "The report on a document is about what the document means", "statement": "Parse returns without an error on an unencrypted document (a head, objects, a cross reference table with a trailer or a cross reference stream, startxref, and any number of incremental updates; possibly linearized) with right cross reference sections. Objects in object streams are left out (C80). The report has, for each object that the document means, once and in some order, what is reported on each dictionary inside it followed by the object, and nothing on superseded or freed objects. References stand for the objects that the document means by them, through chains; missing objects and cycles stand for null. In particular every URI is a line of urls.txt and every script is in javascript.js.", "quantifier": "every document with any number of updates and every spelling of it, every order of map iteration, every password, all sufficiently large bounds on recursion", "why_tests_cant": "It relates all documents to all reports, end to end; superseded objects stay in the file and are found by the scan for obj, so any of them could leak into the report.", "anchors": ["pdf/pdf.go:Parse", "pdf/parser.go:Load", "pdf/parser.go:GetObject", "pdf/object.go:Extract", "pdf/dictionary.go:Extract"]}
{"id": "C76", "title": "An encrypted document is read as it is meant, with its user password only", "statement": "Loading a document (as in C74) encrypted by the standard security handler with RC4 succeeds with its user password, and each object then reads as the object that the document means: strings and streams decrypted with the key of the object, the encryption dictionary and cross reference streams as they are. The report of Parse is about these objects, and contains every URI and script decrypted. With any other password Parse returns the password error and writes nothing to any output file.", "quantifier": "every document with any number of updates and every spelling of it, revisions 2 to 4, every key length, filter selection and password, every MD5 function, every order of map iteration", "why_tests_cant": "It ranges over all documents, keys and passwords; one wrong byte in the derivation of the key of one object is seen only on that object.", "anchors": ["pdf/pdf.go:Parse", "pdf/parser.go:Load", "pdf/parser.go:GetObject", "pdf/encryption.go:SecurityHandler.Init"]}
{"id": "C77", "title": "Encryption that is not supported is refused", "statement": "Parse returns the error for unsupported encryption, whatever the password, and writes nothing to any output file, on every document (as in C74) whose encryption dictionary has another handler than Standard, a version other than 1, 2 and 4, or a revision below 2 or above 4. It returns the general encryption error, and writes nothing, when the dictionary lacks /O, /U or /P or the trailer has an /ID that does not start with a string.", "quantifier": "every document with any number of updates and every spelling of it, every encryption dictionary and password", "why_tests_cant": "It ranges over all encryption dictionaries and all documents that hold them.", "anchors": ["pdf/pdf.go:Parse", "pdf/parser.go:Load", "pdf/encryption.go:SecurityHandler.Init"]}
{"id": "C78", "title": "A document whose offsets are wrong is read as it is meant", "statement": "Loading a document (as in C74) in which startxref or /Prev have wrong offsets or /Prev is missing, for instance because bytes were put in front of the file, succeeds, each trailer key has its newest value, and each number reads as the object that the document means, as if the offsets were right; superseded and freed objects do not come back. Entries of cross reference sections may have wrong offsets too. Two documents with the same objects and the same numbers in use are read alike, whatever their offsets, and whether they are linearized or not.", "quantifier": "every document with any number of updates and every spelling of it, every combination of right, wrong and missing offsets, every password and order of map iteration", "why_tests_cant": "Any combination of offsets can be wrong in any document; the repair has to put all sections of the file in their order although nothing in the file names them.", "anchors": ["pdf/parser.go:Load", "pdf/parser.go:loadXref", "pdf/parser.go:findXrefOffsets", "pdf/parser.go:GetObject"]}
{"id": "C79", "title": "Numbers of any length are read with one correctly rounded step for each operation", "statement": "ReadNumber reads a number with any digits, with or without sign, point and fraction, to its end, and its result is what ten-fold and sum, rounded to the nearest double with ties to even and overflow to infinity, give digit by digit (fraction digit number i adding d/(10 i), which is wrong from the second on, see C06). A whole number of up to 308 digits is read as a finite number with a relative error of at most (1 + 2^-53)^(2k) - 1 for k digits.", "quantifier": "every string of digits of any length, every sign and continuation", "why_tests_cant": "Rounding errors accumulate over unboundedly many digits; ties and overflow are rare cases.", "anchors": ["pdf/parser.go:Parser.ReadNumber", "pdf/number.go"]}
{"id": "C80", "title": "Objects in object streams are read like other objects", "statement": "When the newest cross reference section that lists a number says that the object is in an object stream of the document, GetObject returns the object with that number in the stream, and what it says is in the report.", "quantifier": "every document and every object stream in it", "why_tests_cant": "It ranges over all documents, object streams and numbers.", "anchors": ["pdf/parser.go:GetObject", "pdf/parser.go:loadXrefStream", "pdf/xref.go", "pdf/pdf.go:Parse"]}
{"id": "C81", "title": "A linearized document is read like any other", "statement": "In a linearized document (two parts, each with objects and a cross reference section, of which the first names the second as the one before it, and startxref at the end names the first) all objects of both parts are read with their values, data and messages, and numbers that neither part has are null, as in a document with the same objects that is not linearized.", "quantifier": "every linearized document and every spelling of it, sections being tables or streams, every password and order of map iteration", "why_tests_cant": "It ranges over all documents; the sections are loaded in the order of their places in the file first, in which the older one comes last, and have to be put right by the chain of /Prev afterwards.", "anchors": ["pdf/parser.go:Load", "pdf/parser.go:loadXref", "pdf/parser.go:findXrefOffsets", "pdf/parser.go:GetObject"]}
{"id": "C82", "title": "The owner password opens an encrypted document", "statement": "A document protected with an owner password and a user password is read as it is meant, and reported on, when Parse is given the owner password.", "quantifier": "every encrypted document, every pair of passwords, every MD5", "why_tests_cant": "It ranges over all documents, keys and passwords.", "anchors": ["pdf/encryption.go:SecurityHandler.Init", "pdf/parser.go:SetPassword", "pdf/pdf.go:Parse"]}
{"id": "C83", "title": "Objects hidden in hybrid-reference files are read", "statement": "When the trailer of the newest cross reference table names a cross reference stream under /XRefStm, an object that is free in the table and that the stream lists is returned by GetObject and is in the report.", "quantifier": "every hybrid file, every object listed by its stream", "why_tests_cant": "It ranges over all files, tables and streams.", "anchors": ["pdf/parser.go:loadXrefTable", "pdf/parser.go:Load", "pdf/parser.go:GetObject"]}
{"id": "C84", "title": "The text of every page is in contents.txt", "statement": "The text that the pages of a document show is in contents.txt, page after page in the order of the page tree, each code replaced by its value in the character map of the font chosen for it.", "quantifier": "every document, encrypted or not, every page tree in it, every page, every content stream", "why_tests_cant": "It ranges over all documents, page trees, fonts and content streams.", "anchors": ["pdf/pdf.go:Parse", "pdf/dictionary.go:GetPageTree", "pdf/page.go:Page.extract", "pdf/font.go:NewFont"]}
{"id": "C85", "title": "A file saved as a history of edits is read as it stands after the last edit", "statement": "When a file is written as a sequence of edits, each appending new or replaced objects, freed numbers, a table and a trailer, every object is read as it stands after the last edit, deleted objects are read as null, and raw.pdf has every object that remains.", "quantifier": "every sequence of edits, every object, every file so written", "why_tests_cant": "It ranges over all histories of edits.", "anchors": ["pdf/parser.go:Load", "pdf/parser.go:GetObject", "pdf/parser.go:loadXrefTable", "pdf/pdf.go:Parse"]}
{"id": "C86", "title": "Every file that a document embeds is in the output directory", "statement": "For every file specification that the document embeds (in a name tree of embedded files or attached by an annotation) with data, files.txt has a line with the hash of the data and the name, and the output directory has a file named by that hash whose contents have that hash.", "quantifier": "every document, every embedded file, every output directory that can be written", "why_tests_cant": "It ranges over all documents, name trees and contents of files.", "anchors": ["pdf/object.go:extract", "pdf/file.go:File.Extract", "pdf/output.go:DumpFile", "pdf/dictionary.go:GetNameTreeMap"]}
{"id": "C87", "title": "Every program that a launch action starts is in commands.txt", "statement": "For every launch action of the document (an action of a dictionary, its open action or an additional action) that names a program, commands.txt has a line with the program and its parameters.", "quantifier": "every document, every action, every program and parameters", "why_tests_cant": "It ranges over all documents and all places where actions can stand.", "anchors": ["pdf/action.go:Action.Extract", "pdf/file.go:File.Extract", "pdf/object.go:extract"]}
{"id": "C88", "title": "urls.txt has exactly the URLs of the document", "statement": "urls.txt has a line for every URL of the document: those under /URI, the base URI, the names in a /URLS tree and file specifications that are URLs; and it has no other line.", "quantifier": "every document, every dictionary in it, every URL", "why_tests_cant": "It ranges over all documents and all places where URLs can stand; that nothing else is written cannot be seen from examples.", "anchors": ["pdf/object.go:extract", "pdf/file.go:File.Extract", "pdf/action.go:Action.Extract", "pdf/dictionary.go:GetNameTreeMap"]}
{"id": "C89", "title": "javascript.js has exactly the scripts of the document", "statement": "javascript.js has every script of the document, each followed by a line break: the string under /JS or the data of the stream under /JS of any dictionary; and apart from empty lines it has nothing else.", "quantifier": "every document, every dictionary in it, every script", "why_tests_cant": "It ranges over all documents and all places where scripts can stand; that nothing else is written cannot be seen from examples.", "anchors": ["pdf/object.go:extract", "pdf/dictionary.go:GetStream", "pdf/pdf.go:Parse"]}
{"id": "C90", "title": "The output directory and files.txt have exactly the files of the document", "statement": "Every file that the document holds (of file specifications of actions and of the tree of embedded files, and the data of forms) is in the output directory under its MD5 and has a line in files.txt with its MD5 and name; every file that is only named has a line with zeros; every file in the directory and every line of files.txt is one of these, or empty.", "quantifier": "every document, every dictionary in it, every file and form", "why_tests_cant": "It ranges over all documents and all places where files can stand; that nothing else is written cannot be seen from examples.", "anchors": ["pdf/object.go:extract", "pdf/file.go:File.Extract", "pdf/action.go:Action.Extract", "pdf/output.go:Output.DumpFile"]}
{"id": "C91", "title": "LZW data is read back", "statement": "A stream that an encoder wrote with LZW as the PDF standard describes it (codes of 9 to 12 bits, clear-table and end-of-data codes, with /EarlyChange 1 or 0) is decoded to the bytes that were encoded, without an error, whatever choices the encoder made in cutting the data and clearing its table.", "quantifier": "all data, all encodings of it the standard allows, both values of EarlyChange, any bytes after the end-of-data code", "why_tests_cant": "The encodings are infinitely many, and the places where the code width changes are reached only by long data.", "anchors": ["pdf/filters.go:LZWDecode", "pdf/filters.go:DecodeStream"]}
{"id": "C92", "title": "Flate data is read back", "statement": "A stream that an encoder compressed as RFC 1950 and RFC 1951 describe it (stored blocks, blocks with the fixed codes, blocks with codes of their own, matches up to 32768 bytes back, check sum) is decoded to the bytes that were compressed, without an error, whatever choices the encoder made; and only such streams are read without an error.", "quantifier": "all data, all ways to compress it that the RFCs allow, any bytes after the check sum", "why_tests_cant": "The encodings of one datum are infinitely many; tests use the output of one or two encoders.", "anchors": ["pdf/filters.go:FlateDecode", "pdf/filters.go:DecodeStream"]}
{"id": "C93", "title": "Streams encoded by several filters are decoded to their data", "statement": "A stream whose data was encoded by any sequence of ASCIIHex, ASCII85, RunLength, LZW and Flate, the last two with a TIFF or PNG predictor if the parameters say so, and whose dictionary lists these filters in order with the parameters at the same positions, is decoded to the original data.", "quantifier": "all data, all sequences of filters of any length, all encodings each filter's standard allows, all parameters", "why_tests_cant": "Chains of filters, their encodings and their parameters multiply; tests hold a handful of combinations.", "anchors": ["pdf/filters.go:DecodeStream", "pdf/filters.go:ReversePredictor", "pdf/parser.go:ReadStream"]}
{"id": "C94", "title": "Files with compressed streams are read as what was compressed", "statement": "A file that a writer produced as a history of edits, storing each stream in any encoding (chains of filters, Flate and LZW with prediction), is loaded without an error; each object number gives the object of the last edit with the data that was encoded; the report has the object with this data.", "quantifier": "all histories of edits, all objects, all data, all encodings of each stream", "why_tests_cant": "Files, edit histories and encodings of streams are unbounded and interact; tests hold a few sample files.", "anchors": ["pdf/parser.go:Load", "pdf/parser.go:GetObject", "pdf/parser.go:ReadStream", "pdf/filters.go:DecodeStream", "pdf/pdf.go:Parse"]}
{"id": "C95", "title": "Text is written in UTF-8", "statement": "Text shown in a font whose ToUnicode map gives characters for its codes (UTF-16BE, as the standard has it) is written to contents.txt in UTF-8.", "quantifier": "all character maps, all codes, all texts", "why_tests_cant": "Maps and texts are unbounded; a test with one-byte values in the map does not notice the encoding.", "anchors": ["pdf/font.go:NewFont", "pdf/font.go:Decode"]}
{"id": "C96", "title": "Line breaks in literal strings are read as line feeds", "statement": "A line break inside a literal string that is not preceded by a backslash is read as one line feed, whether it is written as LF, CR or CR LF.", "quantifier": "all literal strings, with any escapes and nested parentheses", "why_tests_cant": "All strings and all combinations of line breaks, escapes and parentheses.", "anchors": ["pdf/parser.go:ReadString"]}
{"id": "C97", "title": "Scripts given as text strings are written as text", "statement": "A script given as a text string, in UTF-16BE with a byte order mark or in one-byte characters, is written to javascript.js in UTF-8.", "quantifier": "all documents, all scripts", "why_tests_cant": "Documents and scripts are unbounded.", "anchors": ["pdf/object.go:Extract", "pdf/pdf.go:Parse"]}
{"id": "C98", "title": "A number that no object of the file has is null", "statement": "After Load, GetObject gives null for every number that no `n g obj` in the file has, whatever the cross reference sections list for it.", "quantifier": "all files, all numbers, all cross reference sections", "why_tests_cant": "Files and what their tables may list are unbounded; a test has a table that is right or off in one way.", "anchors": ["pdf/parser.go:GetObject", "pdf/parser.go:Load"]}
{"id": "C99", "title": "Text of pages is shown in the fonts of their resources, own or inherited", "statement": "The text of a page is written to contents.txt as its content streams show it in the fonts of the page's resources, which are its own or, if it has none, those of the nearest node above it in the page tree that has some.", "quantifier": "all documents, all page trees, all pages and content streams", "why_tests_cant": "Documents and page trees are unbounded; test documents have resources on each page.", "anchors": ["pdf/page.go:Extract", "pdf/page.go:extract", "pdf/dictionary.go:ResolveKids"]}
{"id": "C100", "title": "contents.txt has nothing but the text of pages", "statement": "contents.txt is a sequence of pieces, each of them the text that some content stream of some page of the document shows.", "quantifier": "all documents whose content streams are sequences of operators, plain and encrypted", "why_tests_cant": "That nothing else is written, for any document, is a statement on all documents.", "anchors": ["pdf/page.go:Extract", "pdf/page.go:extract", "pdf/object.go:Extract"]}
{"id": "C101", "title": "Text of forms that pages draw is extracted", "statement": "The text that a form XObject shows is in contents.txt if a content stream of a page draws the form with Do.", "quantifier": "all documents, all pages, all forms", "why_tests_cant": "Documents are unbounded; test documents have their text in the pages' own content streams.", "anchors": ["pdf/page.go:Extract", "pdf/page.go:extract"]}
{"id": "C102", "title": "raw.pdf has every object of a document once and nothing else", "statement": "raw.pdf is the text of the objects that the document means, each object once, with strings decrypted and stream data decrypted and decoded, up to the order of the objects and of the entries of dictionaries.", "quantifier": "all well-formed documents with any number of updates, plain, and encrypted with the user password given", "why_tests_cant": "Documents and chains of updates are unbounded, and the order of objects and entries differs from run to run.", "anchors": ["pdf/pdf.go:Parse", "pdf/object.go:String", "pdf/output.go:NewOutput"]}
{"id": "C103", "title": "Text in fonts with an encoding of their own is extracted", "statement": "When a font of a page has no ToUnicode stream and an /Encoding with /Differences that give codes to letters, text shown in it is in contents.txt as these letters.", "quantifier": "all documents, all pages, all encodings with letters, all content streams", "why_tests_cant": "Encodings and content streams are unbounded; in test documents the codes of letters are those of ASCII, where it makes no difference whether the encoding is read.", "anchors": ["pdf/font.go:NewFont", "pdf/font.go:Decode", "pdf/page.go:Extract"]}
