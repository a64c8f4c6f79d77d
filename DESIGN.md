# Formal model of CPPAlliance/url in Lean 4

The target is the early Boost.URL code in `/repo/include/boost/url`. Nothing of it was compiled or run: the model
was written by reading the source, function by function. Paths below are relative to `/repo/include/boost/url`.

* `properties.jsonl` states the properties in English, `MANIFEST.json` maps them to theorems,
  `AXIOMS.md` lists the axioms of every theorem.
* `lean/Verif/Model` is the code, `lean/Verif/Spec` what the theorems are stated with, `lean/Verif/Proofs` the work
  in between, `lean/Verif/Props` the theorems, each with concrete cases beside it.
* To judge a theorem, read its statement in `Props`, the definitions of `Spec` it uses, and `Model/Memory.lean`,
  `Model/Storage.lean`, `Model/Op.lean` for what a state, an outcome and a history are. `Proofs` need not be read,
  except for the two or three definitions a statement names (`Readable`, `Rep`; see section 4).

## 1. Trusted base

* The kernel of Lean 4.33.0.
* The axioms `propext`, `Classical.choice`, `Quot.sound` and no others. Per theorem: `AXIOMS.md`, written by
  `tools/axioms.py` from `#print axioms`. There is no `sorry`, no `native_decide`, no `bv_decide`, no axiom of ours.
  Finite tables are evaluated by the kernel (`decide +kernel`) and lifted by `forall_byte`.
* The transcription of the C++ text into `Verif/Model` (every definition cites file and lines; `tools/citations.py`
  checks that the cited lines exist and contain the name, `tools/coverage.py` lists the lines nothing cites).
* The transcription of RFC 3986 into `Verif/Spec/RFC3986.lean`, written without reference to the model, and of the
  regular expression of its appendix B into `Verif/Spec/AppendixB.lean` (compared with each other by `C59_rfc`).
* The meaning given to C++ in section 3.

## 2. What is modelled and what is not

| Source | Lean | Remarks |
|---|---|---|
| `detail/char_type.hpp` tables | `Model/Tables.lean` | generated by `tools/gen_tables.py` from the header text, all 256 entries each |
| `detail/char_type.hpp` functions | `Model/CharType.lean` | `pct_encoding` with the five classes used, `hex_digit`, `key_equal`, … |
| `detail/parts.hpp` | `Model/Parts.lean`, `Model/Memory.lean` | the offset table; `get` with its range check on cells |
| `detail/parse.hpp` | `Model/Parse.lean` | every function of `parser` and the free functions |
| `detail/parse.hpp`, `pct_encoding::parse` | `Model/Cost.lean` | `parse_url` and what it calls, once more with a count of the characters read; shown to compute the same (`C66_same`) |
| the iterators of `url_view.ipp` and `url_base.ipp`, `key_equal` | `Model/CostWalk.lean` | the loops over segments and parameters and the lookups, once more with a count of the characters read; shown to compute the same (`C68_same`, `C68_same_segments`) |
| the setters and edits of `url_base.ipp`, `detail/storage.hpp` | `Model/Counted.lean` | all modifying calls once more with a count of the bytes stored into the memory of the url; shown to do the same (`C72_counts`, `C72_counts_edit`) |
| `url_view.hpp`, `impl/url_view.ipp`, `impl/url_view.hpp` | `Model/View.lean`, `Model/Segments.lean`, `Model/Params.lean` | all accessors, segments, params |
| `detail/storage.hpp` | `Model/Storage.lean` | `reserve`, `resize`, `capacity`, `size`, the destructor; a log of what the allocator did |
| `url_base.hpp`, `impl/url_base.ipp`, `impl/url_base.hpp` | `Model/UrlBase.lean`, `Model/View.lean`, `Model/Segments.lean`, `Model/Params.lean`, `Model/Op.lean`, `Model/SegOp.lean`, `Model/ItOp.lean` | all accessors, all setters, editing of segments, params |
| ranges and iterators of no url (default constructed) or of another one | `Model/Foreign.lean` | the object as a number; null; edits given such iterators |
| ranges of a `const` url and strings, kept across calls | `Model/Held.lean` | the pointer as an allocation number; null |
| the same setters and edits with an argument inside the url's own buffer | `Model/Alias.lean`, `Model/AliasIt.lean` (edits through any iterator) | `Alias.run op none` is `run op` and `Alias.runSeg e none` is `runSeg e` by definition |
| the same setters and edits with sizes modulo `sizeMax + 1` | `Model/Machine.lean`, `Model/MachineIt.lean` (edits through any iterator) | every sum and difference in `char_type.hpp`, `parts.hpp`, `storage.hpp`, `url_base.ipp` |
| `scheme.hpp`, `impl/scheme.ipp` | `Model/Scheme.lean` | |
| `static_pool.hpp` | `Model/Pool.lean` | addresses and sizes with wrap-around |
| urls that share a `static_pool` | `Model/Shared.lean` | the pool, its urls with their places in it; copies of a pool; the null pool |
| `basic_url.hpp` | `Model/BasicUrl.lean` | `operator=`; the copy and move constructors cannot be instantiated (they call a member that does not exist), so there is nothing to model |
| `error.hpp`, `impl/error.ipp` | `Model/Error.lean` | messages, mapping to conditions |

3700 of the 4600 non-blank, non-comment lines are cited. The rest is, by `tools/coverage.py`:
declarations (the definitions are cited), include guards, forward headers and configuration; wrappers that only
construct an iterator or range object from `this` (`begin()`, `end()`, `segments()`, `params()`); the `raise()`
functions (they throw the exception of their class: `Exc` in the model); `static_url`, a stub whose storage is not implemented.

Not modelled: streams, `std::string` allocation inside the decoding getters that return strings (the characters they
return are modelled), locales other than "C" (`tolower`), threads, 32-bit targets (except that the theorems about the
container hold for every `sizeMax`), edits of a default constructed range (they use its null pointer at once). A default
constructed `url_view` is the one with no text and all offsets zero. Edits through iterators that are out of date are
modelled (`Model/ItOp.lean`). With assertions, edits through iterators that are not into the path never return
(`C57_outside`). Without assertions the model does not wrap the length of the path for them, so nothing but
`C57_outside_false`, where it does not wrap, is said about them.

## 3. The meaning given to C++

* `char` is a byte (`UInt8`); a string is a list of bytes of any length. Where the code depends on the signedness of
  `char` (`tolower`), that is a parameter; `hex_digit(c) == -1` is read with the signed type it is declared with.
* A parser pointer `p_` is the suffix `[p_, end_)` of the input; reading at the end has its own outcome.
* `error_code& ec` is threaded as a value, with the same "check after call" structure as the source.
* `std::size_t` is a natural number. The `too_large` checks compare with `Env.sizeMax`, `static_pool` computes modulo
  `2 ^ 64`. `Model/Machine.lean` has the modifying calls with sizes that wrap; C52 shows that this is the same unless an
  argument is gigantic. In the parsers and accessors sizes only count what is in memory.
* Memory is a list of cells, each a byte or indeterminate. A new allocation is indeterminate. Outside accesses,
  reading an indeterminate cell where the value matters, using a null buffer, `front()` and `back()` of an empty view,
  passing a negative value to `tolower` are the outcome `fault ub`.
* A copy whose source and destination overlap is `fault ub`, also if they are equal (which implementations usually
  tolerate). A pointer into the buffer is an allocation number and an offset; using it after a reallocation is
  `fault ub`.
* `BOOST_ASSERT`: in a debug build a false condition is `fault assert`, in a release build nothing. Evaluating
  the condition can itself be undefined in a debug build. Theorems quantify over the build mode unless they say which.
* Allocation is an oracle (`Env.alloc`): any request may fail, a request above the allocator's maximum does. A granted
  request and each deallocation with the size passed are recorded in `St.log`.
* An exception carries the state at the point of the throw, so the strong guarantee is a statement about that state.
* Loops recurse on fuel; running out is `fault diverge`. Theorems show that it does not happen, or for the loops that
  do not end, that no fuel suffices.
* `s_` of `url_base` always equals `p_` of its storage (nothing else assigns it), so they are one thing (`St.buf`).

## 4. Notions the statements use

* `Components`, `render`, `Valid d`, `UriReference d`: RFC 3986 relative to a `Dialect d`. `rfc` is the RFC; `lib`
  is what the library implements. The fields in which they differ are the deviations.
* `View.make s`, `made env s`: constructing a view, a url from a string.
* `Op`, `Op.Effect`: the modifying calls and what they should do to the components.
  `Op.Defective`: the calls that demonstrably do something else; `C51_exact` shows that these are exactly the wrong ones.
* `Reach env st`: `st` results from a default constructed url by any sequence of calls and segment edits, returning or
  throwing, none of them defective. Theorems about histories are theorems about all `Reach` states.
* `Used env st`: the same for calls without any exclusion (but no segment edits). What holds there is weaker: without
  assertions nothing outside the buffer is touched, and every part except the user stays initialised (`C23_release`); with assertions `C23_debug_exact` says which calls fail (for all of `Worked`, like `C17_used`, `C15_worked` and `C16_worked`).
* `Worked env st`: any calls, and any edits of segments through iterators that are into the path, wherever they come from.
  This includes all states of `Reach` (`C57_reach`) and `Used`.
* `Worlds dbg base size w`: a pool, the urls that use it and the destroyed ones, after any constructions, calls, edits
  and destructions.
* `Rep env st c`: the memory of `st` holds exactly the text of `c`, with the offsets of its parts.
* `Readable o`: `o` is an accepted view, or a reachable url that knows whether it has parameters.
* `Regular`: every `&`-piece of the query has a `=`, except possibly the last if no fragment follows.

## 5. Where the code and the documentation or the RFC disagree

Every entry is a theorem with the suffix `_false`, with a witness or for the whole class.

| Theorem | Disagreement |
|---|---|
| `C04_false`, `C19_path_false` | the first character after a single leading slash is not validated (`/%zz` is accepted) |
| `C05_false`, `C19_rfc_false` | digits in the scheme, lower-case hex digits, IPvFuture are rejected; `/?q` has no query |
| `C07_false` | `::.2.3.4` is accepted as IPv6 address, `::ab` is rejected |
| `C14_false`, `C14_moved_false` | decoding the segment of `/%` reads beyond the url; edits can move this segment further back |
| `C19_password_false` | a password starting with `:` is rejected |
| `C20_user_false`, `C26_false`, `C25_false` | clearing the user or the password leaves `//`, or creates it |
| `C25_worked_false` | a lone `:` as the authority: removing the userinfo takes the first character of the query or fragment behind it, so it cannot be exchanged with setting the query |
| `C21_*_false` | removing a scheme or an authority, adding a query, erasing a segment can give text that parses differently or not at all |
| `C22_false` | growing a default constructed url leaves an indeterminate byte after the text |
| `C23_set_user_false`, `C23_clear_user_false` | `set_user("")` reads in front of the text (debug build) |
| `C17_used_false` | after `set_port_part(":")` and `set_host("ab")` on an empty url the text is `ab:`, and `set_port("")` then erases the host too (release build; with assertions it stops) |
| `C23_uninitialised_false` | after `set_encoded_userinfo(":b")`, `set_password("")`, `set_user("x")` the text contains a byte that was never written (release build) |
| `C23_debug_uninitialised_false` | the same after `set_port("123")`, `set_encoded_authority("")`, `set_port_part(":")`, `set_encoded_userinfo("")` with assertions; `C23_exposes`: it takes exactly one character behind the scheme |
| `C24_colon_false` | `set_password_part(":")` allocates although its result fits |
| `C24_replace_false` | replacing a segment allocates although the result fits, after `set_password_part(":")` (release build) |
| `C72_replace_false` | the storage keeps the size of a longer text after it was made shorter; replacing a segment then copies all of it, so that its cost is not bounded by the text (release build; with assertions it stops) |
| `C24_limit_false` | once the capacity is half of the allocator's limit or more it never grows again |
| `C30_false` | `set_encoded_userinfo` splits two characters too early |
| `C32_false` | `set_encoded_origin` accepts what is not an origin |
| `C33_*_false` | setters do not update the counts and the host type; `host()` then returns encoded text |
| `C34_stale_false` | as a consequence iterating over segments after `set_encoded_path` visits nothing, or aborts; `C34_gone`, `C35_gone`, `C38_gone`: with a stale count and no path or query the loops read behind it |
| `C35_false`, `C35_const_false` | iterating over the segments of a `url_view` or `const` `url` with a query never ends |
| `C37_*_false` | edits of segments: in front of a relative path, at the end without a query, in a default constructed url |
| `C38_*_false`, `C39_fragment_false` | parameters without `=`: merged with the next one, or the loop runs into the fragment |
| `C40_*_false` | decrementing to the first parameter; keys that contain `&` |
| `C41_false`, `C41_container_false` | `has_authority()` against `encoded_authority().empty()` for `//` |
| `C42_false` | `tolower` of a negative `char` |
| `C43_*_false` | the pool grants memory behind its end after aligning; sizes wrap |
| `C44_false` | assignment does nothing |
| `C46_*_false`, `C47_*false` | assertion in `password_part`; a lone `:` without an authority |
| `C50_*_false` | an argument that is part of the url is read after it was released, moved or overwritten; a segment cannot be replaced by itself |
| `C52_*_false` | the size of a very long escaped argument wraps, or the size of the room for it is zero; then bytes are written outside (1431655766 characters on 32 bits) |
| `C54_edit_false` | inserting a segment may fail for one of two urls with the same text and parts (debug build) |
| `C54_text_false` | two urls with the same text may have different components |
| `C54_unwritten_false` | two urls with the text `:` and the same parts, after the same call: the text of one contains a null character, that of the other a byte that was never written |
| `C55_*_false` | an iterator points elsewhere after the text in front of its element changed its length |
| `C56_*_false` | a range of a `const` url keeps the buffer pointer: undefined after the buffer was replaced, null if the url was empty |
| `C57_*_false` | an insertion at the end of the text, and `begin()` of an empty path counted as one segment, use the byte after the text, which may be indeterminate; an iterator that is not into the path any more makes part of the path the query |
| `C58_mixed`, `C58_null`, `C58_element` (no suffix: they say so themselves) | a loop to an iterator of another object does not end regularly; a default constructed iterator given to an edit is dereferenced; `*begin()` and `++begin()` of a default constructed range are undefined or fail an assertion, except `*` on the segments of a `url_view` |
| `C59_false` | the regular expression of RFC 3986, appendix B, finds a query in `/?q` |
| `C60_*_false`, `C60_null` | a pool never gets memory back; a copied pool hands out the memory of the original; a default constructed allocator has no pool |
| `C61_colon_false`, `C61_call` | `set_password_part(":")` throws although its result fits; `set_encoded_url` does not compare with the largest size |
| `C61_clear_false` | after `set_port_part(":")` of a url without an authority, removing the userinfo adds two characters, which are not written, and may throw |
| `C62_false` | what a getter returns is not always accepted by its setter, or loses an empty component (`?`, `#`, `@`, `:` or `//`); `set_encoded_userinfo(encoded_userinfo())` changes the user |
| `C63_any_false`, `C63_moved_false` | one byte of a path can be anything, for example a line feed; an insertion before it and a host bring `//h/x/\n/b` about |
| `C63_userinfo_false` | `set_encoded_userinfo("%41b:c")` stores a user `%4`, which is no escape, and `user()` then reads beyond it |
| `C64_fragment_false` | behind a lone slash `#` does not start a fragment: `x:/#f` has the path `/#f`, and `x:/##` the path `/#` and an empty fragment |
| `C65_false` | the password of `//u::p@h` and the path of `//h//x` are not accepted by an empty url |

## 6. How the properties are proved

| id | what is modelled | how it is proved |
|---|---|---|
| C01 | whole parser | soundness and completeness for the library dialect |
| C02 | parser, `parts` | soundness: offsets are prefix sums of the parts of `c` |
| C03 | parser and accessors | completeness for all valid `c` |
| C04, C05 | parser | false, witnesses; `_partial` by comparing dialects; `_exact`: both decompositions of a text compared |
| C06 | `match_ip_v4` etc. | the octet scanner against dec-octet |
| C07 | `parse_ip_v6` | loop invariant; exact language; which accepted literals the RFC has, and which of the RFC are accepted |
| C08 | all parser functions with fault outcomes | fuel bound and induction |
| C09-C13 | `pct_encoding`, `key_equal`, `port_string` | induction on strings, 256-entry tables by kernel evaluation |
| C14 | getters | from C01 each component is well escaped; `C14_exact`: by the invariant of C63 only a `%` at the start of a segment can be wrong |
| C15-C20, C22-C26 | container on cells | refinement: the memory represents eight strings; every setter is proved to act as list update |
| C24 for all calls and edits | all setters and edits, any state with ordered offsets | each call makes room once and then only writes, or reads before it |
| C17, C23 for all histories | container on cells | weaker invariant: eight lists of cells, all but the user initialised; `C17_used` follows each setter of a part of the authority over these lists, so its two exceptions (`Drops`, and the path for `set_encoded_origin`) are all there are; `C23_debug_exact` adds that the scheme ends with `:` and the userinfo with `@`, which decides every assertion |
| C15, C16, C28 for all histories | container on cells | the same lists of cells, followed through each setter up to the part it sets (`Proofs/Stored`); the user needs its two first bytes to be written, which `C23_exposes` decides |
| C25, C26 for all histories | container on cells | from C71: what a call makes of the eight texts changes one field, and depends on no other field if the authority does not have one character (`turns_auth`); the cached values from `C33_cached` |
| C22 for all histories | container on cells | the same lemmas (`Proofs/Texts`) carry the byte after the text; edits keep it (`Part8.edit`) |
| C21, C27 | container and parser | refinement and completeness of the parser |
| C28, C29 | `normalize_scheme`, `port_string` | refinement |
| C30-C33, C46, C47 | setters with defects | the defect for its whole class, `_partial` for what holds |
| C34-C37 | segment iterators and edits | refinement to splitting at `/` and list editing; `_worked` and `_gone`: only the cells from the path on matter to the iterators, so an unwritten user does not |
| C38-C40 | parameter iterators | refinement to splitting at `&` and `=`, for views and for urls after any calls and edits (by C63 the query is well formed); `_exact` for C38 and C40 by cases; `C39_lost`: the loop up to the parameter whose parsing fails |
| C41, C45 | accessors | from the refinement; `C41_exact` and `C41_view_exact`: the two values differ only for an authority without any text |
| C42 | scheme table | the lengths and bytes switched over, against the six names; `C42_exact`: also for bytes outside the domain of `tolower` |
| C43 | `static_pool` | invariant over request histories; `C43_exact`: the modular subtraction by cases |
| C44 | `operator=` | the assignment is the identity |
| C48 | error codes | finite table |
| C49 | all calls and accessors | simulation of the build with assertions by the one without |
| C50 | setters and edits with an argument in the buffer | simulation of the call with a copy, while the buffer and what is in front of the part stay; `_worked`: after any calls and edits, from the invariant of C17 and C23 |
| C51 | the calls left out of `Reach` | the effect of each of them is characterised |
| C52 | all setters and edits with sizes modulo `sizeMax + 1` | step by step equal to the model while the invariant keeps offsets and capacity below the largest grant; `_worked`: after any calls and edits, from the invariant of C17 and C23 |
| C53 | `reserve`, the destructor, all calls | every step keeps the log replayable to the one block of the buffer |
| C54 | all calls, edits and accessors | the components are determined by text and offsets, and the effect of a call by the components; for all histories (`C54_histories`) the eight texts are, and the effect by C71; what a call makes of the cached values is `C33_cached`, which holds in any state |
| C55 | iterators across calls and edits | the iterator of position k is determined by where the text starts and the lengths of the pieces up to k |
| C56 | what holds the buffer pointer across calls | every step keeps the allocation or makes a new one with a larger capacity; `_worked`: after any calls and edits, from the invariant of C17 and C23 |
| C57 | edits through iterators of any origin | on the invariant of C17 and C23, with the query and fragment known to start with their delimiters and the byte after the text null or indeterminate; `C57_exact` and `C57_debug` follow each edit up to its first failing assertion or undefined read; `C57_outside` follows the assertions for iterators that are not into the path, in any state |
| C58 | ranges and iterators of no url or another one | equal to the model of one object if they belong to it; otherwise what an edit does does not depend on the object except for the length it returns |
| C59 | parser and accessors | the regular expression evaluated on rendered components; equality exactly if the path has no `?` or `#` |
| C60 | calls and edits of urls with a common pool | a call is determined by the answers of the allocator, and asks once; so each url has a history with an allocator of its own, and the blocks in its log double in size |
| C61 | all calls and edits, any allocator | before a call makes room it reads and may reject the argument, afterwards it cannot throw; so it throws exactly if making room does |
| C62 | calls that are not Defective | the effect of a call on the components is the identity exactly if the component has that text; the exceptions are named by `Forgets` and `Unfit` |
| C63 | calls that are not Defective, edits that are Editable | an invariant of the path (`Tame`: all segments are well formed but for the first byte of at most one, and none if the path is rootless) that every call and edit keeps; the other components are well formed anyway (`PartsOk`) |
| C14, C63 (`_worked`) | any calls and edits | each setter's exact effect on the eight lists of cells (`Proofs/Texts`) keeps scheme, host, port, query and fragment well formed; only the user information and the path can leave their grammar |
| C64 | the parser | from soundness, completeness and uniqueness of the decomposition; `fits_iff` says when a path that is acceptable somewhere is acceptable elsewhere; that other texts are rejected follows by cutting their decomposition at the delimiter, which gives a second decomposition of the text before it |
| C65 | calls that are not Defective | the text of each component is in the language the setter accepts (C19), whatever url it comes from; what is read back follows from the effect of the call |
| C66 | the parser, with a count of the characters read | each function of the parser reads at most K characters for each one it passes and C more; the one place where the parser goes back over many characters is the userinfo, and what it read there are not the characters that start a path, query or fragment, so a host that stops within them ends the parse |
| C67 | all calls and edits, with the log of allocations | every block is at least twice as large as the one before (shown for each step of a call in Proofs/Fair.lean), so the sizes are dominated by a geometric series; the capacity is what some text needed or twice a capacity that was too small for one |
| C68 | iterators and lookups, with a count of the characters read (C68_query: the loop over the parameters returns, see C38; C68_segments: the loop over the segments returns) | each step pays for the characters of its parameter: parsing reads at most two for each and two more, showing it two, comparing its key three for each of the key's; positions only increase and a pointer beyond the memory is a fault |
| C69 | calls that are not Defective, edits that are Editable | `fits_iff` (C64) says when a path may stand after a scheme, an authority and before a query; applied to the components each call leaves (C17) this gives a condition on the texts the accessors return, which is the list `Texts.Breaks` and `Texts.BreaksEdit` |
| C70 | calls that are not Defective, edits that are Editable | the modifications keep the other fields (`effect_other`), so the setter leaves what it would have left on the url as it was (`effect_absolute`, `edit_twice`), and C62 says what that is; for the user and password `Touched` follows whether an authority appeared |
| C71 | container on cells | each setter followed through on eight lists of cells (`Proofs/Texts`), with the two cells in front of the user that it keeps wherever they come from (`Kept`); what it says is then read back as texts. What `set_encoded_origin` accepts is a prefix of a URL that its parser cannot read further (`TakenAs` in `Props/OriginExact`): the parser is followed through for texts that are not at their end (C32_exact, C32_worked, C71_accepts) |
| C72 | all calls and edits, with a count of the bytes written | `resize` moves the text behind the part once, after at most one copy into a new block (`resize_writes`); each step of a call adds what it writes (`Lin`, `Writes`). A setter that calls `resize` twice is `set_password_part(":")`. From below, each step writes at least the cells that differ afterwards (`Counts` in Proofs/CountedLeast.lean) |
| C73 | all histories of calls and edits, with the same count | the capacity is the potential: a copy into a new block writes at most the old capacity and two, and the new one is at least twice as large (`Paid.reserve` in Proofs/CountedAmort.lean); each step adds what it writes (`Paid`, `Tail`, `Behind`, `Rear`); without an authority its parts are empty, so that adding one moves no more (`Tail.unlessAuthority`). Appending: nothing is behind the position, and the capacity is at most twice the text it was made for |
| C74 (partial) | reachable states in order whose path is empty or starts with a slash or whose first segment is kept, any decision per segment, any allocator; with assertions only if there is a query or the last segment is kept, and `C74_last_false` says that it never returns otherwise | the loop is client code, written out in Props/Rework.lean; induction over the segments still to be visited with the invariant `Orderly`, one edit of it by C37 (`Orderly.edit`). `C74_false`: what happens without the conditions, the defects of C37 seen from a loop |
| C75 (partial) | as C74, any list of strings at any position | the same invariant, induction over the list; decoding is inverse to encoding (`decode_pctEncode`) |

## 7. Testing the theorems

`seeded/LOG.jsonl` has one line per wrong program: the model was edited in a scratch copy, everything rebuilt, and the
theorems that no longer prove recorded (including those that depend on a failing lemma). A claim that was broken by the
edit but still proved was tightened; the line says so.

## 8. Testing the model

All assertions of the library's own tests of `url`, `url_view`, `scheme` and `error` (`/repo/test`) are transcribed in
`Props/Suite.lean`, `Props/SuiteUrl.lean` and `Props/SuiteView.lean` (the latter two by `tools/suite.py`: one row per
assertion with its line number) and hold in the model, with and without assertions, checked by the kernel. They are
finitely many cases and no claim rests on them: they are evidence that the transcription is right, as far as the library
passes its own tests.
