# Design of the formal model of libristra

Everything under `/verif/lean/Verif` is a Lean 4 model of C++ code in `/repo/ristra`
plus theorems about that model.  `properties.jsonl` lists the properties in English,
`MANIFEST.json` maps each to the theorems, `seeded/LOG.jsonl` records the
wrong-program experiments.

## How the files are organised

For each area `X` there is a directory `Verif/X/`:

* `Model.lean`  – the functions of the code, each with a comment `-- file:lines`.
* `Spec.lean`   – (when needed) the small independent vocabulary in which properties
  are stated.  It never mentions the model.
* `Lemmas.lean` – helper lemmas.
* `Props.lean`  – the property theorems only, each followed by an `example` showing a
  concrete non-trivial case that meets its hypotheses.

## Trusted base

* Lean's kernel (4.33.0), and the axioms `propext`, `Classical.choice`, `Quot.sound`
  (no theorem uses anything else; see the section "Axioms" below).
* That each definition in a `Model.lean` says what the cited lines of C++ do.  The
  code was read as text and never run.
* Numbers.  `real_t`/`double` are modelled by exact arithmetic (a commutative ring, a
  field or ℝ, whichever the theorem needs).  Rounding is modelled for C86 only, by an
  arbitrary rounding with a bounded relative error: underflow, overflow to infinity and
  NaN are not modelled.  Machine integers are modelled by ℤ/ℕ unless the property is about
  conversion or truncation.
* The C++ abstract machine only as far as modelled: out-of-range memory access,
  violated `assert`s, uncaught exceptions and non-termination are separate outcomes
  of the model wherever the code can reach them.
* For atomics: interleaving of the individual atomic instructions.  With weaker memory
  orders (`sc = false`) loads and failed compare-exchanges may see stale values; the
  reordering of one thread's operations on different variables is not modelled, so for
  weaker orders the theorems speak about one variable at a time.
* Lua, Boost, Python, VTK and std:: are represented by the documented behaviour of the
  few calls the code makes.

## Convention when the code violates the property

The theorem named `Cxx_..._fails` proves the negation of the full claim by a concrete
witness; the theorem(s) with suffix `_partial` prove what remains true, under an
explicit hypothesis; the section "Disagreements" lists all of them.

## Plan per property

| id | model | method |
|----|-------|--------|
| C01 | `FixedVector.Model`: N storage cells + length; each operation writes cells in the order the code does; outcomes ok / assertion failure / undefined behaviour | refinement to `List`: one simulation lemma per operation, induction over the operation list |
| C02 | same, with the overlapping `std::copy` modelled both as memmove and as the element loop | refinement for memmove (`_partial`), counterexample for the loop, exact characterisation of the loop |
| C03 | same | refinement; counterexample for the returned iterator of an empty range |
| C04 | same, `operator==` reading through rhs storage | counterexample; `_partial` for equal sizes; characterisation as prefix test |
| C05 | per container `at` | case analysis, full strength |
| C06 | `ArrayRef.Model`: base buffer, offset, length | refinement to `List.drop/take`, induction over chains |
| C07 | `FilterIterator.Model` with fuel/step relation | negation: the iterator never moves off a match; `_partial` for the first step |
| C08 | `Zip.Model`: list of ranges with positions | induction; counterexample for the unchecked first range |
| C09 | `Algorithm.Model`: sort + merge intersection | induction, multiset count |
| C10 | `Algorithm.Model`: `std::unique` | counterexample; `_partial` for inputs whose duplicates are adjacent |
| C11 | `Strings.Model`: find/replace loop with explicit divergence | termination measure; equality with the structural spec; divergence theorem for empty `from` |
| C12, C13, C14 | `Strings.Model` over `List Char` | induction on strings |
| C15 | `TimeUtils.Model` on ℤ | `omega` |
| C16, C17, C18, C19 | `MathArray.Model`: in-place loops over a store with possible aliasing | loop invariants; counterexamples for aliasing and integer division |
| C20, C21 | `MultiArray.Model` | induction on rank |
| C22–C29 | `MatrixM.Model` over `Fin n → Fin m → R`, loops as folds | identification with Mathlib's `Matrix.det`, `adjugate`, products; `ring`, `field_simp` |
| C30, C31, C32 | `Vec.Model` | `ring`, list induction |
| C33–C38 | `Geometry.Model` on lists of points | list induction + `ring`; against Lebesgue measure by volumes and first moments of simplices (induction on the dimension), winding numbers, convex hulls (fan of triangles), change of variables for trilinear cells |
| C39–C43 | `ArrayView.Model` | induction on rank, odometer = successor in lexicographic order |
| C44–C49 | `Atomics.Model`: interleaving transition system, arbitrary thread count | invariants over all reachable states, history variable for linearization |
| C50–C54, C70 | `InputEngine.Model`: registries as finite maps, operations as steps | invariants over operation histories |
| C55–C57 | `LuaStack.Model`: abstract stack machine; `LuaStack.PropsRead`: the conversions as rules without the stack | induction over results/tables; the stack program returns exactly what the rules give |
| C58 | `Dbc.Model` | case analysis |
| C59–C63 | `Elements.Model`: polynomials in the reference coordinates over ℝ | `ring`, `HasDerivAt`, enumeration of the finite node table |
| C64–C66 | `Lagrange.Model`: the triple loop | induction over loop indices, Mathlib `Lagrange.basis` |
| C67 | `Quadrature.Model` | exact evaluation on monomials, linearity |
| C68 | `TupleUtils.Model` | induction on arity |
| C69 | `TrivialString.Model` | list induction |
| C71 | `InputEngine.Model` | case analysis on the maps |
| C72 | `Elements.Model` | monomial sums over the node tables with symbolic exponents, linearity over `MvPolynomial` |
| C73 | `LuaStack.Model` | case analysis, reusing the conversion theorems |
| C74 | `LuaStack.Refs`: registry, control blocks, objects; any sequence of events | simulation of "an object is its value", induction over events |
| C75 | `Dbc.Model`: CMake variables to macros to behaviour | computation for arbitrary option values |
| C76 | `TupleUtils.MathModel`: cells, conversions and an arbitrary partial operator | invariant of the stepping loop, induction on the tuple |
| C77 | `Catalyst.UtilsModel`: paths and strings as lists of characters | characterisation by the last slash / first occurrence |
| C78 | `Catalyst.UtilsModel`: files as bytes, images as sizes and bytes, rounding a parameter | induction over the bytes; bounds on the rounding |
| C79 | `Catalyst.UtilsModel`: two maps, any history of events | induction over the history |
| C80 | `Catalyst.GridModel`: the growing arrays and the sharing with the grid | invariant over any sequence of calls |
| C81 | `Catalyst.GridModel`: named arrays of tuples | induction over elements and components |
| C82 | `Catalyst.MeshModel`: meshes with vertices, faces, cells | reading back what was written; permutations of the visit |
| C83 | `Python.Model`: objects, counts, pending error; the interpreter's answers a parameter | case analysis over every answer |
| C84 | `Macros.Model`: tokens after expansion, the C++ grammar of `if`/`else` | parse of print, induction on the program |
| C85 | `Arguments.Model`: ordered map of groups; the parser a parameter | induction over registrations; extensionality of sorted tables |
| C86 | `Rounding.Basic`: a rounding with relative error `u`, the same definitions run on rounded scalars | calculus of error bounds, induction over the loops; exact evaluation for the far tetrahedron |
| C87 | `Printing.Model`: streams with a field width, the loops of the output operators | reading the text back word by word |
| C88 | `Printing.Model`: the dump loop on the Lua stack machine of C46 | loop induction; the state comes back unchanged |
| C89 | `Catalyst.AdaptorModel`: processors as addresses, VTK's answers a parameter | induction over the history of steps |
| C90 | `Catalyst.AdaptorModel`: files by name, log objects | induction over the history of operations |
| C91 | `MultiArray.Arith`: the loops over the flat storage, scalars by reference | loop invariant for storing loops, read back at index tuples by the ranking of C20 |
| C92 | `Atomics.Calls`: the macro tables and overloads, a call resolves to one update or does not compile | case analysis over names and schemes for any element type; run time part by C48's invariant |
| C93 | `Macros.Messages`: the text of each macro, and how it leaves | unique splitting of texts at separators that one part cannot contain |
| C94 | `Integration.Cell`: the cell map built from C61's positions, C63's Jacobian, C67's rules | positions are polynomials of known degree in each variable, the rules are exact on them; change of variables to the cell; closed forms for quadrilateral and hexahedron |
| C95 | `TypeTraits.Model`: types, class hierarchies with access, member lookup; a predicate is a function of a type that may also fail to compile | induction over hierarchies for lookup; the trick of the hidden base by cases on what lookup finds |
| C96 | `ArrayView.Iterators`: view objects in a store, iterators hold the number of the view object; loops from begin to end | the index after `k` increments is the one of rank `k`; a strictly increasing list of the contained indices is unique; writes by induction with the addresses still to come untouched |
| C97 | `ArrayView.Iterators`: the constructor overload resolution picks, conversions, `make_array_view` | a linear map agrees with the rank on all contained indices iff it does on unit vectors |
| C98 | `ArrayView.Index`: 64 bit components, scalars converted before use | componentwise; products by induction over the factor with partial sums in range |
| C99 | `Atomics.Memory`: histories of messages with views for the atomic variables, happens-before by views for plain data, the mutex carries a view; programs of plain accesses and compiled updates | views grow along executions and every later message of a chain of updates carries the released view (induction over executions); invariants for the lock, for one thread, for a producer/consumer pair and for n arrivals; concrete racing executions for the missing orders |
| C100 | `Deck.Model`, `Deck.Session`: the source's calls as programs on the Lua stack of `LuaStack.Model`, sequences of calls with exceptions caught; the specification follows a path through the file's tables | every call keeps the stack within 19 entries and the memory as it is; induction over the calls with the books (registered tables and keys) agreeing; refinement of the parameter of `InputEngine.Model` |
| C101 | `Deck.Wrapper`: objects alive, variables, wrappers as a shared pointer and a reference | invariant relating the objects to what the program means, by induction over the steps; witness for wrappers of variables |
| C102 | `Making.Model`: candidates, conversions and ranking of C++ overload resolution for the constructors and assignments of the three classes; contents with indeterminate elements | case analysis of the resolution, induction over the arguments; witnesses for `{v}`, conversions that do not compile, and builds without assertions |
| C103 | `Geometry.Model`: the fan of triangles about the vertex mean of `polygon<3>`; a similarity is a linear map multiplying scalar products by s², plus a translation | triangle areas by Lagrange's identity, sums over edges telescoping, equality of |sum| and sum of moduli; convex combinations by induction; witness for a dart |
| C104 | `ArrayView.Asking`: the constructors each view class declares and the arguments the members pass them; `none` for a program that is rejected | case analysis over kinds and candidates; elements by `C41_*` and row-major ranks; witnesses for static views |
| C105 | `ArrayView.Asking`: `make_array_view`, `make_static_array_view` and the constructors from arrays, pointers and containers | row-major ranks below the product of the dimensions; witness of a view of five elements over an array of three |
| C106 | `InputEngine.ByTuple`: the macros as a loop over the types, arguments with value category, moved-from values | induction over the tuple: the states between the calls exist exactly if ..; witness of a moved-from temporary |
| C107 | `InputEngine.ByTuple`: `resolve_inputs()` with the lines it prints | the results have the length of the tuple; names listed = failed before or not found now; witness of a stale name |
| C108 | `InputEngine.ByTuple`: owners (`unique_ptr`s) and a set of deleted addresses | invariant: registrations are a permutation of deleted and held; witnesses of double registration |
| C109 | `FixedVector.Throwing`: every operation as its sequence of length changes and element assignments, cut after any number of them | refinement of `FixedVector.Model` when nothing throws; induction over the sequence for the invariants; witnesses of lost elements |
| C110 | `Json.Model`: lexer (bytes, UTF-8, escapes, the number automaton), the parser's loop with its stack, the builder with its pointers as paths; `Json.Spec`: the grammar of RFC 8259 as inductive predicates | lexer = tokens of the grammar by induction over the bytes; loop = recursive token description by strong induction on the rounds, and back by induction on the derivation; a measure for termination; contexts with a hole for the builder |
| C111 | `Json.Model.extract`: the same parser without `strict`, the rest of the stream, the byte looked at after a number | from the lemmas of C110; induction over the values in the stream; witness of the lost byte |
| C112 | `Json.ScriptsModel`: `getCatalystScripts` on the bytes of the file, `find`, `[]`, `size`, conversion to string | from C111; induction over the loop; the tidied object has the last value of a name |
| C113 | `Json.WriterModel`: `dump_escaped` with its buffer of 512 bytes and the UTF-8 automaton with its table, `dump_integer`, `dump` with the growing string of indentation, `operator<<`; floats by a parameter with the property that their text is a JSON number read as the same number | what is written is a layout of the value (mutual induction), the layout is a text of the grammar of C110 (mutual induction on the value), hence by C110/C111 what is read is the value |
| C114 | the same; `Spec.Segs`: the parts of a string, maximal beginnings of UTF-8 characters | invariant of the loop of `dump_escaped`: state and code point are those of the beginning read so far; uniqueness of the parts; witness of a lost member |
| C115 | the same; `Spec.layV`: the layout as a recursive function without strings of indentation | mutual induction on the value with the invariant that the string of indentation is fill characters followed by blanks; witnesses for wide indentation |
| C116 | `Json.CompareModel`: `==`, `<` and the operators made of them, on the order of floating-point numbers as a parameter with NaNs and rounding conversion; `Spec.Less`: the documented order as an inductive predicate on what the values stand for | mutual induction on the values; witnesses of a cycle and of `==` not being transitive |
| C117 | `Json.GrisuModel`: Grisu2 with its table of powers, on 64-bit arithmetic with wrap-around, and the layout of the digits; `Spec.double`: the value of the bits as a rational number; `Spec.numVal`: the value of a text; `Spec.Nearest`: any `strtod` that takes the nearest number where there is one | error bounds of the products by arithmetic, the table and its reach checked entry by entry in the kernel (all 79 entries, all 2098 exponents), invariants of the digit loops, monotonicity of `double`; witness of a text that is not the shortest |
| C118 | `Json.PointerModel`: `split`, `to_string`, `escape`, `unescape` on bytes; `Spec.Pointer`: the grammar of RFC 6901 as an inductive predicate | induction on the text; the searches of `replace_substring` are shown to be one substitution for each byte |
| C119 | the same: `get_checked`, `contains`, `get_unchecked` of a constant, `std::stoi` as the standard defines it by `strtol`; `Spec.Leads`: where a pointer leads | induction on the pointer; witnesses for the texts of indices taken in excess and for elements out of reach |
| C120 | the same: `get_unchecked`, with whatever is done through the reference as a parameter | induction on the pointer; witness of a wrap-around |
| C121 | `Json.PatchModel`: `diff`, `patch` with its operations on lists of members in order | mutual induction on both values, for every document the two are part of (what is around the place is a parameter that `at` looks through), with the result as a function of the values; the result equals the target by mutual induction |
| C122 | `Json.PatchModel`: the six operations of `patch`; `Spec.Performs`: RFC 6902 as an inductive relation of operation, value before and value after (`Spec.Change`: what is changed, and that nothing else is) | induction on the path; both directions for `replace`, `test`, `remove` and for `add` below a container; witnesses of paths accepted or undefined against the RFC |
| C123 | `Json.PatchModel`: `merge_patch`; `Spec.Merged`: RFC 7396 as an inductive relation that tells the members of the result one by one | induction on the patch with the loop's effect on each member; the relation is shown to be functional, which gives both directions |
| C124 | `Json.PointerModel`: `flatten`, `unflatten`, `get_and_create`; `Spec.Leads`: the value a pointer leads to; `Spec.Full`, `Spec.Named`, `Spec.blank`: what decides whether the value comes back, and with what changed | invariant of the loop: what has been made so far is the value seen through the leaves already taken; the order of the escaped names; conversely an array made of what should be an object stays one; both directions, witnesses for a member `0` |
| C125 | `Json.BinModel`, `Json.CborModel`: `from_cbor` byte by byte; `Spec.Cbor.Item`: the data items of RFC 7049 as an inductive relation of bytes and value, with the deviations of the code as extra rules switched on by a flag | mutual induction in both directions: what is read is an item, every item is read; the rounds needed are bounded by the length of the input; more input does not change what has been read, hence no beginning of an item is one; witnesses for each deviation |
| C126 | `Json.CborModel`: `to_cbor`, with the byte order of the machine as a parameter | induction on the value: the bytes are an item (with C125 this gives the round trip); the bytes of a number in either byte order are its digits to base 256 |
| C127 | `Json.BinModel`: `readHalf`, `readSingle`; values in ℚ | arithmetic with the position of the highest bit |
| C128 | `Json.MsgModel`: `from_msgpack` byte by byte; `Spec.Msg.Item`: the objects of the MessagePack specification as an inductive relation of bytes and value | as C125, here without deviations |
| C129 | `Json.MsgModel`: `to_msgpack`, with the byte order of the machine as a parameter | induction on the value: the bytes are an object (with C128 this gives the round trip), and no object with that value is shorter; a string of 2^32 bytes as witness of the missing length |
| C130 | `Json.BsonModel`: the reader of BSON, byte by byte, over any input; the BSON specification as inductive predicates, with a flag for what the code takes beyond it | soundness and completeness of the reader against the predicates by induction; what happens at the end of the input by comparing the run with that on a longer input; deviations as witnesses |
| C131 | `Json.BsonModel`: `to_bson` with its two passes, sizes first | induction on the value: the size computed is that of the bytes written, the bytes are a document (with C130 this gives the round trip); long strings as witness |
| C132 | `Json.UbjModel`: the reader of UBJSON, byte by byte, over any input; the UBJSON specification as inductive predicates, with limits for the sizes of containers and a flag for what the code takes beyond it | soundness and completeness of the reader against the predicates by induction; what happens at the end of the input by comparing the run with that on a longer input; deviations, and an array of 2^31 - 1 elements in nine bytes, as witnesses |
| C133 | `Json.UbjModel`: `to_ubjson` with both options, and the byte order of the machine as a parameter | induction on the value: the bytes are a value, with and without the type in front (with C132 this gives the round trip); what is refused by induction as well |
| C134 | `Json.IterModel`: values in a store, iterators as the three members of `iter_impl`, with assertions and undefined behaviour as outcomes | each operation on the `i`-th place gives the place the specification on lists says; loops by induction on the elements left; deviations as witnesses |
| C135 | `Json.IterModel`: `erase` in its five forms, `clear` | the list without the elements, for every place; the erasing loop by induction |
| C136 | `Json.IterModel`: `insert` in its four forms, `push_back`, `emplace_back`, `emplace`, `update`; updating with a part of the value itself as a loop over a path in it | lists and maps by induction on what is added; when the loop over a part is undefined, exactly; deviations as witnesses |
| C137 | `Json.IterModel`: the constructors from a list in braces and from two iterators | induction on the list; deviations as witnesses |
| C138 | `Json.ConvModel`: types as a datatype, `to_json` and `from_json` of each | induction on the type: exactly which values come back; through texts with C113; deviations as witnesses |
| C139 | `Json.ConvModel`: `get`, `get_to` (with what is stored when it throws); casts to integers wrap or are undefined | each kind of type characterised exactly; how it ends by induction on the type |
| C140 | `Json.ConvModel`: `get_ptr`, `get_ref`, the union of integers | by cases; deviations as witnesses |
| C141 | `Inflate.Model`: tables and reading of symbols; `Inflate.Spec`: canonical codes of RFC 1951 | the tables hold every code (induction over the lengths); short and long codes by one argument on bits |
| C142 | `Inflate.Model`: blocks, `decodeBuffer`, `decodeMalloc`; `Inflate.Spec`: the formats as relations on places in the stream | every outcome of every number of rounds classified by induction; the relation is deterministic, so the converse follows; deviations as witnesses |
| C143 | the same; the loops have a number of rounds | from the same classification; symbols that bring bytes are bounded by the size of the output; two streams without end as witnesses, for every number of rounds |
| C144 | `Png.Model`: `createRaw`; `Png.Spec`: scanlines and filters as relations between bytes | invariants over rows, pixels and bytes of a block of memory with bytes that may not be determined; every data long enough are undone by recursion, so the converse follows |
| C145 | `Png.Model`: `createImage`; `Png.Spec`: the table of passes of the format | each pass puts its pixels at their places and keeps the others; the table and the numbers of the code agree on 8 by 8 pixels, and modulo 8 everywhere |
| C146 | `Png.FileModel`: `loadPng`; `Png.FileSpec`: chunks, their order, what colour a pixel has | each kind of chunk takes in exactly its bytes and leaves what it says in the state, by induction over the chunks; then C142, C145, and loops over the pixels; files that are accepted although they should not be are computed |
| C147 | `Png.FileModel`: `loadPng`; `Png.Safe`: what holds between the chunks | an invariant of the state, kept by every kind of chunk, and the bytes left decrease; then each step behind the chunks ends in one of the outcomes, by C143, C144 and C145; files that hang or have undefined behaviour are given |
| C148 | `Png.CompareModel`: `imageCompare` with the loader of `Png.FileModel` | C146 for both files, the bytes counted by the loop are those that are different, by an invariant and a bijection of places; C147 for any files |
| C149 | `Json.SaxModel`: the loop of the parser with any consumer of events; `accept`, `parseEx` | the calls of a round do not depend on the consumer, the loop is that of `Json.Model`; calls told about a text that fails are completed to those for a value, by an invariant with the arrays and objects that are open |
| C150 | `Json.SaxModel`: the builder with a callback (`Sieve`, `sieve`, `parseCb`); the callback any function with a state | what a callback makes of a value by recursion over the value (`visit`); the builder with its stacks and places arrives at it, by an invariant about the place of the next value (`Spot`), mutual induction over values, elements and members; the documented effect (`sift`) where it holds, and four witnesses where not |
| C151 | `Catalyst.ShareModel`: memory of callers, array objects with their references, the three collections of a grid | for all sequences of uses: an invariant that counts references (`WF`), another that no array but one releases a block (`Safe`) |
| C152 | `Catalyst.WriteModel`: `write`, `writeParts`, `setOutputSerial`, `writeUnstructuredGrid`, with the two writers of VTK by the files they write | the files of all processes written in any order (any permutation of all writes): which content a file has at the end, from names that are different for different pieces |
| C153 | `Json.AccessModel`: `at` and `operator[]` with keys and indices, constant or not, one after the other; the value before and after, also if an exception is thrown | where keys and indices lead by an inductive relation (`Reach`); induction over the chain, for all values: what is there after an assignment, in both directions, and where a chain is stopped |
| C154 | `Json.TornModel`: `operator>>` with the builder as it is when the exception is thrown | what is left of a value by an inductive relation between calls and values (`Torn`); every beginning of the calls for a value is of that form (mutual induction over values, elements, members), and the builder makes the same of it, at any place |
| C155 | `Json.SpillModel`: the writer as functions that write to a stream piece by piece, with what has been written when an exception is thrown | a relation between the strict writer, its text and the text with another handler, kept by writing one part after the other (mutual induction over values, elements, members) |
| C156 | `Json.PlaceModel`: the lexer with its counters of bytes, lines and columns, `get` and `unget`, and the parser on top of it | the counters are those of the bytes taken (`At`), kept by every part; two runs on texts that agree on the bytes taken do the same (`Sim`), for any bounds of the loops; refinement of the lexer and parser of `Json.Model`, so that an error is told exactly where that one throws; a column that is wrong is given as witness |
| C157 | `Png.PnmModel`: the reader of a file with the end-of-file indicator, the header, the samples, and `imageCompare` on two such files | headers by an inductive grammar of white space and comments and numerals of any length; the loops by induction over them; any file by a measure of what is left to read; what is cut off, texts that are no pictures, the greatest value and overflowing numbers as negations, the first two for all files of the kind |
| C158 | `Png.BmpModel`: the header in all its versions with the place in the buffer, palettes, the three kinds of pixels, the replaced alpha channel, the rows swapped in place | the header by the bytes at their places, with an invariant of the reader that gives the place in the buffer; the pixels by invariants of the nested loops, the swapping by an invariant over the rows; the samples by masks from the bits of the mask, with the tables of factors checked for every value of every width; any file by showing that each row fills its place; the assertion on the place of the pixels by the same invariant of the reader |
| C159 | `Png.AnyModel`: the format told by the first bytes, then the loaders of C146, C157, C158 and C160; other formats are a parameter | what each loader gives, from C146, C157, C158 and C160, then the count of the samples that differ by an invariant; the order and the self comparison for any outcome of loading |
| C160 | `Png.TgaModel`: the test of the header, the header, palettes, the loop over packets and pixels, rows stored as they are, rows swapped in place, red and blue exchanged | the header by the bytes at their places; packets by an inductive relation between a place in the file and the places of the pixels, which an invariant of the loop follows; the pictures by that invariant and invariants of the loops that swap; any file by showing that packets for any number of pixels are there |
| C161 | `Png.PsdModel`: the header, the blocks that are left out, channels packed and not packed, what is filled in, the colours freed of white with rounding as a parameter | the header by the bytes at their places; packed bytes by an inductive relation that the loop follows, each channel as a change of every fourth byte; any file by a measure of what is left to read; the undefined conversion from the bounds of rounding, for every size |
| C162 | `Png.PicModel`: the header, the packets, rows of the three kinds, what is done after a failure, the conversion to three channels | the place in the file with what the reader knows about its end; packets by an inductive relation; the pixels by invariants of the nested loops; the failures for all files of the kind and all sizes |

## What is modelled and what is not

| code | model | left out |
|------|-------|----------|
| utils/fixed_vector.h | `FixedVector.Model`, `FixedVector.Throwing` (exceptions thrown by element assignments) | allocation of the element objects themselves; exceptions thrown by element comparisons and by the element copies of constructors |
| utils/array_ref.h, const_string.h | `ArrayRef.Model` | — |
| utils/filter_iterator.h | `FilterIterator.Model` | random-access forms (the code has none) |
| utils/zip.h, zip_impl.h, tasks.h | `Zip.Model` | iterator category plumbing |
| utils/algorithm.h | `Algorithm.Model` | `std::sort`, `std::unique` are taken by their specification |
| utils/string_utils.h | `Strings.Model` | locale (`isspace` in the C locale) |
| utils/time_utils.h | `TimeUtils.Props` | the clock |
| utils/dimensioned_array.h, math/array.h | `MathArray.Model`, `Making.Model` | iterators; printing is in `Printing.Model` |
| math/multi_array.h | `MultiArray.Model`, `MultiArray.Arith`, `Making.Model` | iterators; printing is in `Printing.Model` |
| math/matrix.h | `Mat.Model`, `Mat.ExpModel` | |
| math/vector.h, math/general.h, general_impl.h | `Vec.Model` | |
| geometry/** | `Geometry.Model` | degenerate inputs only as far as stated (division by a zero area is not a number) |
| utils/array_view.h | `ArrayView.Model`, `ArrayView.Iterators`, `ArrayView.Index`, `ArrayView.Asking` | `array_view_impl.h`, a second copy no header includes |
| atomics/src/** | `Atomics.Model`, `Atomics.Calls`, `Atomics.Memory` | the `kokkos` scheme; in `Memory`: the single order of seq_cst operations (taken as acquire and release), load buffering, mixed plain and atomic accesses to one variable |
| initialization/arguments.h | `Arguments.Model` | the parser (Boost) is a parameter |
| initialization/** otherwise | `InputEngine.Model`, `InputEngine.ByTuple`, `Deck.Model` | `announce`, `print_registered_types`, the name table of the status values |
| assertions/errors.h, here.h, exceptions.h | `Macros.Model`, `Macros.Messages` | |
| embedded/embed_lua.h | `LuaStack.Model`, `LuaStack.Refs`, `Deck.Wrapper` | the Lua interpreter (what a call does is a parameter), metamethods; the stack dump is in `Printing.Model` |
| embedded/embed_python.h | `Python.Model` | the interpreter (its answers are a parameter); `Py_Initialize`, `Py_Finalize` |
| assertions/dbc*.h, dbc_impl.cc, the options in CMakeLists.txt | `Dbc.Model` | template type deduction of the macros |
| elements/elements.cc | `Elements.Model`, `Lagrange.Model`, `Quadrature.Model` | rounding of the tabulated constants beyond the digits given |
| utils/tuple_*.h, static_for.h, template_helpers.h | `TupleUtils.Model` | types of heterogeneous tuples |
| math/tuple.h | `TupleUtils.MathModel` | the arithmetic of the element types (a parameter) |
| utils/type_traits.h, type_traits_impl.h | `TypeTraits.Model` | `type_as_string`, `is_ostream_writeable`, `has_call_operator`; overload resolution inside classes, virtual bases |
| utils/trivial_string.h | `TrivialString.Model` | |
| io/catalyst/utils/catalystUtils.hpp, insituTimer.hpp | `Catalyst.UtilsModel`, `Json.ScriptsModel`, `Png.CompareModel`, `Png.PnmModel`, `Png.BmpModel`, `Png.TgaModel`, `Png.PsdModel`, `Png.PicModel`, `Png.AnyModel` | loaders of images that are neither PNG nor PGM nor PPM nor BMP nor TGA nor PSD nor PIC files; the clock |
| io/catalyst/utils/json.hpp: lexer, parser, json_sax_dom_parser, input adapters, parse, operator>>, find, operator[], size; serializer, dump, operator<<; operator==, <, !=, <=, >, >=; to_chars for `double`; json_pointer, at, contains, operator[], flatten, unflatten; patch, diff, merge_patch; to_cbor, from_cbor, to_msgpack, from_msgpack, to_bson, from_bson, to_ubjson, from_ubjson; iter_impl and all that uses iterators, erase, insert, push_back, emplace, update, lists in braces; at and operator[] with keys and indices; conversion from and to C++ types, get, get_to, get_ptr, get_ref; sax_parse, accept, parse with a callback and without exceptions | `Json.Model`, `Json.ScriptsModel`, `Json.WriterModel`, `Json.CompareModel`, `Json.GrisuModel`, `Json.PointerModel`, `Json.PatchModel`, `Json.BinModel`, `Json.CborModel`, `Json.MsgModel`, `Json.BsonModel`, `Json.UbjModel`, `Json.IterModel`, `Json.ConvModel`, `Json.SaxModel`, `Json.AccessModel`, `Json.TornModel`, `Json.SpillModel`, `Json.PlaceModel` | `to_chars` for `float` (not used); texts of error messages; wide-character input; `strtod` (a parameter of the model: any function from texts to numbers) |
| io/catalyst/vtk/unstructuredGrid.h | `Catalyst.GridModel`, `Catalyst.ShareModel`, `Catalyst.WriteModel` | the bytes of the files; VTK itself by its documented behaviour |
| io/catalyst/flecsale_unstructuredGrid.h | `Catalyst.MeshModel` | timers, file output |
| io/catalyst/adaptor.h, utils/insituLog.hpp | `Catalyst.AdaptorModel` | VTK itself by its documented behaviour; MPI; the file system |
| io/catalyst/utils/stb_image.h: the zlib decoder (3927-4399) | `Inflate.Model` | `stbi__err` keeps only the message; `malloc` and `realloc` fail above a bound that is a parameter |
| io/catalyst/utils/stb_image.h: the PNG decoder (4402-5088) and reading files for it (744-830, 1499-1611) | `Png.Model`, `Png.FileModel` | for `req_comp` 0, which is all that is passed in the library, and without the flags that a program may set; a block of memory is had if it is no greater than a parameter |
| io/catalyst/utils/stb_image.h: PGM and PPM files (7190-7299) and reading files for them (744-830, 1499-1588) | `Png.PnmModel` | for `req_comp` 0; the tests for other formats before are replaced by what they do to a file that begins so |
| io/catalyst/utils/stb_image.h: BMP files (5134-5477) | `Png.BmpModel` | for `req_comp` 0, with assertions; right shifts of negative numbers round down |
| io/catalyst/** otherwise, compatibility/** | none | the rest of the vendored image code; one type trait |

## Axioms

Every theorem listed in `MANIFEST.json` depends on a subset of `propext`, `Classical.choice` and
`Quot.sound`; `vcheck` prints them.  There are no axioms, no `sorry`, no `native_decide` and no
`bv_decide` anywhere under `lean/`.

## Disagreements

Where the code, as modelled, violates the property.  Each line is a theorem that proves the negation by a
witness (or, where it says so, for all inputs of a kind).

**C02 fixed_vector insert shifts the tail intact**

* `C02_insert_fails`: fails for every element type moved element by element (any type that is not trivially copyable), whatever a moved-from object looks like: inserting in front of two or more elements overwrites them.
* `C02_insert_alias_fails`: fails also for trivially copyable types when the argument refers to an element of the vector at or after the insertion point's successor: `v.insert(v.begin(), v[1])` on `{1,2}` inserts `1`, not `2`.
* `C02_history_fails`: fails over histories for element types moved one by one: three calls, each in range, and the vector shows something else.

**C03 fixed_vector erase**

* `C03_erase_empty_range_returns_begin_fails`: fails for the returned iterator: erasing the empty range at position 2 of a three-element vector returns `begin()`, not position 2.

**C04 fixed_vector equality is equality of contents**

* `C04_eq_fails`: fails: `==` is not symmetric and calls vectors of different size equal.

**C05 bounds-checked access**

* `C05_multi_array_unchecked_fails`: The unchecked `operator[]` on an index array can leave the storage.

**C07 filter_iterator visits exactly the matching elements**

* `C07_traversal_never_ends_fails`: fails as soon as one element matches: the traversal never reaches the end, because `++` does not leave a matching element.
* `C07_full_fails`: hence the full property is false for every range with a match

**C08 zip iterates in lockstep**

* `C08_mismatch_accepted_fails`: fails Ranges of different lengths are not always rejected: two ranges are never compared, so the longer one is silently cut short.
* `C08_single_range_undefined_fails`: fails Zipping a single range reads past the array of sizes.

**C10 remove_duplicates removes every duplicate**

* `C10_fails`: fails: duplicates that are not neighbours survive.

**C11 replace_all terminates with the left-to-right replacement**

* `C11_empty_pattern_fails`: fails for an empty pattern: the call never returns.

**C12 path splitting round trips**

* `C12_remove_extension_fails`: fails: with a dot in a directory and none in the file name, the path is cut inside the directory.

**C13 split tokenises on the given delimiters**

* `C13_split_fails`: fails: splitting at commas also splits at spaces.

**C16 compound assignment accepts an alias of itself**

* `C16_array_scalar_alias_fails`: fails: `(2,3) *= x[0]` gives `(4,12)`, not `(4,6)`.
* `C16_dimensioned_self_fails`: fails for `dimensioned_array`: `x op= x` does nothing.
* `C16_dimensioned_self_witness_fails`: fails: a case where that differs from the elementwise sum.

**C17 scalar division divides each element**

* `C17_integer_division_fails`: fails for integers: dividing by anything of absolute value at least two gives all zeros (the reciprocal truncates to zero).
* `C17_integer_witness_fails`: a case where this differs from elementwise division: (4,6)/2

**C21 column-major ordering is a bijection**

* `C21_col_major_fails`: fails: for a 2×3 shape the column-major number of the last element lies outside the storage, and for a 3×2 shape two elements collide.

**C24 matrix and vector products**

* `C24_aliased_ax_plus_y_fails`: `ax_plus_y(A,y,y)` does not compute `A y + y`: the updated entries of `y` are read again.

**C25 matrix_vector computes alpha*A*x + beta*y**

* `C25_matrix_vector_fails`: fails for `beta ≠ 1` on two columns: the result is not `alpha A x + beta y`.

**C28 matrix exponential**

* `C28_zero_fails`: fails for the zero matrix: the conversion of `log(0) = -inf` to `int` is undefined, so `exponential(0)` has no defined result.

**C30 dot, cross, triple products and normals**

* `C30_normal3_fails`: fails in three dimensions: `normal(a,b)` throws whatever the arguments.

**C31 averages and extrema**

* `C31_int_negative_fails`: fails for `int`: the pack and container versions divide by an unsigned count, so a negative sum is converted to a huge positive number.
* `C31_container_fails`: fails for resizable containers: elementwise `min` and `max` write past the end of an empty result for all non-empty arguments.

**C35 3D polygon normal and area**

* `C35_three_vertices_fails`: fails for triangles: the run-time versions of normal, area and centroid stop on an assertion for every three vertices (and the variadic versions are not enabled for three).

**C37 hexahedron volume and centroid**

* `C37_enclosed_fails`: fails in general: the absolute values are taken term by term, so for a hexahedron whose triple products differ in sign (here one with all corner Jacobians positive) the result is not the enclosed volume: `553/4` instead of `483/4`.

**C39 array_view strides and linearisation**

* `C39_array_ctor_fails`: fails for `contiguous_bounds` built from a C array: the strides are set to the extents, so a contained index is linearised past the end
* `C39_set_extent_fails`: fails after writing an extent of `contiguous_bounds` through its mutable `operator[]`: the strides are those of the old extents
* `C39_strided_container_fails`: fails for a strided view over a container: the check compares the number of elements viewed, not the span they cover, so a contained index reads past the container

**C40 bounds_iterator enumerates every index once**

* `C40_zero_extent_fails`: fails when an extent is zero: the range of `(0, 3)` holds no index, yet iterating it yields three indices, none of them contained
* `C40_advance_end_fails`: fails for advancing to the end when the rank exceeds one: `begin + size` is not `end` (and, for rank above one, `operator+=` does not even compile, see the model)

**C42 multi-dimensional index comparisons**

* `C42_lt_fails`: fails: `<` is not a strict order (each of two indices is less than the other) and `<=` does not mean `<` or `==`

**C43 view emptiness, checked access and equality**

* `C43_empty_fails`: fails: `empty()` is true for a view of six elements and false for a default-constructed view (it returns whether the data pointer is non-null)
* `C43_at_fails`: fails: `at()` with an index that is not contained terminates the program; the `out_of_range` it means to throw cannot be caught because the function is `noexcept`
* `C43_eq_shape_fails`: fails: two contiguous views of different shapes with the same elements in storage order compare equal
* `C43_eq_pointer_fails`: fails: two strided views of one buffer that start at the same place compare equal although their elements differ (only the pointers are compared)
* `C43_eq_empty_fails`: fails for strided views of no elements: comparing two of them reads memory (here past the end of an empty buffer), because iterating a zero extent yields indices, see `C40_zero_extent_fails`

**C45 CAS loops are lock-free**

* `C45_weak_fails`: does not extend to the weak scheme: any number of attempts can fail though no update takes effect at all

**C47 native-atomic operations return the updated value**

* `C47_returned_value_fails`: is false: two threads add 1 and 10 to 0 under the native scheme; both calls return 11, though the first addition produced 1. (Loads return the current value.)

**C48 schemes agree and can be mixed**

* `C48_lock_mixed_fails`: is false when the lock scheme meets another one on the same variable: the lock call reads 0, the other thread's compare-exchange adds 1 and succeeds, the lock call writes 10: one addition is lost, and both calls have returned
* `C48_serial_threads_fails`: is false for the serial scheme in two threads: one of two additions is lost
* `C48_mixed_types_fails`: is false when the operand has another type: `x += 0.5` on an integer -1 gives 0 under the compare-exchange, lock and serial schemes and leaves -1 under the native one

**C49 atomic min and max**

* `C49_mixed_sign_fails`: fails for mixed types: the minimum of -1 and 1u is 1, the maximum of 5 and 3000000000u is a negative number
* `C49_nan_initial_fails`: fails with NaN: a variable that was never set to a number takes no minimum

**C50 input resolution priority**

* `C50_unmapped_fails`: is false for a target the Lua source has never heard of: it has a hard-coded default, but the Lua source throws instead of reporting that it has no value, and `resolve_inputs()` with it

**C51 resolve reports success truthfully**

* `C51_stale_fails`: is false in one direction: `resolve_inputs()` returns false although every registered target has a value and counts as resolved, when an earlier resolve found the value and the present sources do not

**C52 resolving is repeatable**

* `C52_moved_default_fails`: is false for types that moving empties: the first resolve gives the default 5, the second what moving left of it
* `C52_function_default_fails`: is false for functions: after replacing a hard-coded function, the next resolve reports success and still returns the old one

**C53 qualified names identify inputs**

* `C53_names_fails`: is false: a colon in a name lets two different inputs share one registry entry
* `C53_parameters_fails`: for registered parameters: false in general

**C54 init_value status**

* `C54_stale_verdict_fails`: is false when the registry changes: the value was 1 and accepted; the program then writes 0, which the validator rejects; `valid()` still says true

**C55 Lua calls leave the stack balanced**

* `C55_field_fails`: as stated for field access: violated. Access by key or index empties the whole stack (`lua_pop(s,-1)`), so whatever was on it is lost
* `C55_throw_fails`: as stated for throwing conversions: violated. Converting anything that is not a number to a number throws and leaves the value on the stack
* `C55_field_throw_fails`: a field of something that is not a table throws and leaves the value too
* `C55_leak_fails`: every caught failure leaves one more value on the stack, so once the slots Lua started with are used up the next global access overflows

**C56 Lua multiple results arrive in order**

* `C56_last_nil_fails`: as stated: violated when the last of the values is nil: the call throws although it returned
* `C56_no_results_fails`: as stated: violated for functions that return nothing: with nothing on the stack the call looks at the slot below it, which Lua keeps nil in the main program, and throws

**C57 Lua container conversions round trip**

* `C57_string_fails`: as stated: violated for strings with a zero byte, which come back cut there
* `C57_fraction_fails`: as stated: violated for numbers that are not integers, which convert to zero instead of being refused
* `C57_matrix_fails`: as stated: violated for matrices: rows longer than the matrix are accepted and cut
* `C57_matrix_row_fails`: a row that is not a table is undefined rather than refused
* `C57_array_argument_fails`: an array of 20 or more doubles given to a function in a fresh state (20 slots) overflows the stack: the caller asks for one slot and `lua_push` for `N - 1`, counted from the same place
* `C57_index_fails`: with an index other than the top, a vector is read from the top of the stack all the same

**C58 assertion macros act exactly on failure**

* `C58_one_of_fails`: with checks off `OneOf` is true whatever the value, so a program that uses its value as the condition takes another branch
* `C58_twice_fails`: with checks off the operand of `InOpenRange` is evaluated twice: for `++i` with `i = 0` the check `0 < ++i < 2` holds when checks are on and fails when they are off, and `i` ends up different
* `C58_effect_fails`: with checks off a condition with an effect is not evaluated at all

**C59 shape functions form a partition of unity**

* `C59_quad12_fails`: is false for Quad_12_2D: its `basis` leaves four entries as they were, so the sum is one only if those happened to add up to zero
* `C59_tess16_fails`: is false for Tess16: the member table is never set, and e.g. if it holds zeros the position of every point is the mean of the vertices

**C60 shape functions interpolate nodes**

* `C60_quad12_fails`: is false for Quad_12_2D: at node 4, no entry of the basis that is written is one
* `C60_tess16_fails`: is false for Tess16 with the member as it is: zeros map node 0 elsewhere

**C61 shape function partials are derivatives**

* `C61_quad12_fails`: is false for `basis` of Quad_12_2D: at the centre, the derivative of the first basis function is not the partial

**C62 isoparametric map reproduces affine fields**

* `C62_tess16_fails`: is false for Tess16 as it is: with zeros in the member every point of the reference tesseract itself maps to its centre

**C63 Jacobian determinant and inverse**

* `C63_two_by_two_fails`: is false for a 2 by 2 matrix: the determinant formula reads a third row
* `C63_inverse_3d_fails`: is false in 3D, in three ways: for an invertible triangular matrix the result is not the inverse; for a symmetric invertible matrix it is not either; and for some invertible matrices the function divides by zero
* `C63_inverse_4d_fails`: is false in 4D: a matrix with determinant one whose computed inverse is not its inverse

**C66 tensor-product elements of any order**

* `C66_quad_position_fails`: fails for `QuadN::physical_position`: mapping a reference point through the element's own nodes should give the point back, but the second coordinate stays as it was, for every order and every point whose second coordinate is not what the vector held
* `C66_hex_position_fails`: fails for `HexN::physical_position`: the third coordinate stays as it was

**C69 trivial strings round trip**

* `C69_too_long_fails`: fails A string that does not fit overruns the buffer; nothing rejects it.
* `C69_access_at_capacity_fails`: fails ...but the index equal to the capacity passes the assertion and leaves the buffer.

**C70 encoded parameter defaults**

* `C70_group_again_fails`: a second title for a group is dropped, and `register_group` says nothing of it
* `C70_type_fails`: so registering an `int` parameter is undefined
* `C70_reregister_fails`: is false for a default registered again: the new one is dropped though the call returns true
* `C70_collision_fails`: is false for different parameters whose keys collide

**C71 Lua table and value registration**

* `C71_lua_name_fails`: is false for a table with another name in the Lua file: `register_table("t", "base_state", "lua_t")` looks for `t`, not `lua_t`
* `C71_replace_fails`: is false for a second registration: it reports that it displaced the old definition, but the old table stays
* `C71_stale_lua_name_fails`: is false for a key that once had a Lua name of its own: registering it again without one keeps the old Lua name

**C72 fixed-order elements reproduce their polynomials**

* `C72_quad12_basis_fails`: fails for `Quad_12_2D::basis`: interpolating `1 - xi^2` with it gives `16/9` at the centre, not `1`, whatever the entries it leaves unset hold (the polynomial vanishes at their nodes)

**C75 build options select the assertion behaviour**

* `C75_options_fails`: no value of the two documented options has any effect: unless the user defines other variables or macros by hand, checks are off and every action is to do nothing
* `C75_insist_fails`: so with the default build even `Insist`, "always on", passes over a failed condition without a trace

**C76 tuple arithmetic is element by element**

* `C76_scalar_alias_fails`: fails: `divides_equal(t, get<0>(t))` (or any `op=` whose scalar is an element of the tuple, which is taken by reference) uses the already overwritten element for the later ones: `(4, 8) / 4` gives `(1, 8)`, not `(1, 2)`.
* `C76_shared_fails`: fails for tuples of references: `plus_equal(std::tie(a,b), std::tie(b,a))` with `a = 1`, `b = 2` gives `a = 3`, `b = 5`.

**C77 scripts are found beside the input file**

* `C77_scripts_no_directory_fails`: fails for every input file named without a directory: the scripts are looked for in a directory with the name of the input file, never in the current directory.
* `C77_replace_absent_fails`: fails when the text to replace does not occur: the call throws `out_of_range` instead of returning the string unchanged.

**C79 interval timers**

* `C79_second_stop_fails`: fails: a second `stop` is ignored (`insert` does not replace the first duration): start at 0, stop at 1, stop at 5 gives 1.

**C80 exported grids hold the points and cells given**

* `C80_add_after_push_fails`: fails: a point added after the grid was handed over shows up in the grid as a cell without a type, until the next hand-over.
* `C80_mixed_fails`: fails: the ways of adding points do not go together. `insertNextPoint` does not advance the index `addPoint` writes to, so the inserted point is overwritten; `setPoints` does not set the index back, so after `addPoint` its cells refer to points that do not exist.
* `C80_reset_fails`: fails: `reset` does not empty the grid. On a grid not handed over it destroys the arrays still in use: every later call that adds points is undefined. On a grid handed over once the old points and cells remain, and as many new points are written over the old ones while their cells are added to the old cells.

**C82 exported meshes are the mesh**

* `C82_create_order_fails`: fails for vertices visited in another order: `createMesh` numbers the points in the order visited, and the cells go on using the numbers of the mesh.
* `C82_create_2d_fails`: fails in two dimensions: `createMesh` writes outside of its coordinate array for every mesh with at least two vertices.
* `C82_create_1d_fails`: fails in one dimension: three coordinates are read from a point with one.

**C83 the Python interface keeps counts and errors clean**

* `C83_conversion_fails`: fails for the conversions: asked for the number in an object that is not a number they return -1 like for the number -1, and leave the error pending.
* `C83_import_leak_fails`: fails for a module that cannot be imported: the object made for its name is never released.
* `C83_call_leak_fails`: fails for a function that raises: the tuple of arguments is never released.
* `C83_borrowed_fails`: fails for what `python_get_tuple_element` and `python_add_to_path` return: unlike the results of the other functions it is not a reference of the caller, and releasing it with `python_free` releases a reference of somebody else.

**C84 error macros are statements**

* `C84_dangling_else_fails`: fails for `if (a) assert_true(c, msg); else s;`: the `else` is taken by the `if` inside the macro. The `else` part runs when it should not (both conditions true) and does not run when it should (`a` false), and nothing warns of it.
* `C84_warning_else_fails`: fails for `if (a) short_warning(msg); else s;`: it is not a C++ program.

**C85 command line option registry**

* `C85_caption_lost_fails`: fails for captions: an argument registered under a key before its group (for instance by another source file initialised earlier) takes away the caption, for good: the group keeps the empty caption whatever is registered afterwards, although `register_group` answers `true`.
* `C85_second_group_fails`: fails for a second caption: registering a group again under the same key is ignored, and the answer is `true` all the same.

**C86 floating point results are close to the exact ones**

* `C86_tetrahedron_fails`: fails for small tetrahedra far from the origin. Take coordinates with `p` significant binary digits and `2e + 4 ≤ p < 3e`, so `p = 53` and `e = 18` for `double`. The tetrahedron with the corner `(2^e, 2^e, 2^e)` and unit edges along the axes has determinant `-1`, so volume `1/6`. The four corners are exactly representable and the computed determinant, and with it the volume, is `0`.
* `C86_polygon_fails`: fails for small polygons far from the origin. Take coordinates with `p` significant binary digits and `p < 2e`, `e + 3 ≤ p`: `e = 27` for `double`, `e = 13` (coordinates about 8192) for `float`. The unit square with the corner `(2^e, 2^e)` is exactly representable, and its computed area is `0`, not `1`.

**C87 printed arrays and matrices**

* `C87_array_injective_fails`: fails for elements whose text contains blanks: two different arrays of two strings print alike.
* `C87_width_fails`: fails for the field width: `std::setw` before an array does not pad the printed array to that width, nor does it reach the elements.
* `C87_matrix_rows_fails`: fails for rows: a matrix is not printed row by row. The matrix with rows `1 2 3` and `4 5 6` prints as three lines `1 4`, `2 5`, `3 6`.

**C88 the Lua stack dump shows the stack**

* `C88_last_row_fails`: fails for an empty stack: the last row reported is then whatever the slot below the stack holds, numbered 0.

**C89 visualisation steps**

* `C89_free_function_fails`: fails for the free function: a step that is not the last and that no script wants is processed all the same.
* `C89_copy_fails`: fails for copies: an adaptor can be copied, and ending both the copy and the original is undefined.
* `C89_finalize_fails`: fails for `finalizeAdaptor`: every call is undefined, as the function ends without giving its result.

**C90 log files**

* `C90_destructor_fails`: fails for the end of a log object: text inserted and not written is lost, the destructor writes nothing.
* `C90_unopened_fails`: fails for files that cannot be opened: nothing is written and nothing is said.

**C91 multidimensional array arithmetic and comparison**

* `C91_scalar_alias_fails`: fails for a scalar that is an element of the array: `m += m(0,0)` adds different values to different elements.
* `C91_integer_division_fails`: fails for integers: dividing by 2 gives zeros.
* `C91_assign_short_fails`: fails for short ranges: `assign` is documented to replace the contents, but keeps the rest of them.

**C92 every way to write an atomic update is the same update**

* `C92_failure_order_fails`: fails for some calls that compile: a releasing order for the failed exchange is undefined
* `C92_increment_order_fails`: fails: although an increment is an addition of one, under `cpp` it takes no memory order

**C93 error reports tell where and what**

* `C93_what_fails`: fails for the exception object: it carries nothing of the message, so that whoever catches it cannot tell two errors of a class apart
* `C93_file_abort_fails`: fails for file errors with exceptions off: the program aborts and the file is named nowhere
* `C93_here_str_fails`: fails for `HERE_STR` when a file name has colons: two places with one text
* `C93_here_order_fails`: fails: `HERE` and `HERE_STR` at one place disagree

**C95 type predicates tell what they say**

* `C95_are_type_arrays_fails`: Arrays of different length and pointers count as one type
* `C95_are_integral_reference_fails`: A reference to an integer is not integral for `are_integral`, though it is of that type for `are_type_t`: a pack of forwarded variables must be decayed first
* `C95_callable_fails`: `is_callable` is also true for a class with a private operator () and for one inheriting two, neither of which can be called; it is false for function pointers, functions and references to callable objects
* `C95_container_fails`: Containers of the standard are not containers for `is_container`: `std::list`, `std::map` and `std::deque` have no `data`, `std::array` has no allocator type; neither is a reference to a container
* `C95_iterator_fails`: `is_iterator` takes a pointer to a function for an iterator, a reference to an iterator for none, and does not compile for `void *` and `void`
* `C95_subscript_fails`: So an integer has a subscript operator, taking a pointer
* `C95_special_decay_fails`: A reference wrapper held in a variable (so deduced as an lvalue reference) or const stays a wrapper: the reference is not taken out, unlike `std::make_tuple`
* `C95_extents_fails`: `extract_extents` compiles for no type

**C96 iterating over a view**

* `C96_strided_fails`: A strided view of no elements, some but not all extents zero, is not iterated zero times: elements that are not there are read
* `C96_static_const_fails`: So a const loop over a static view of two by three elements visits two of them, and one over a static view of one by one by one elements reads past it
* `C96_copies_fails`: Iterators of two copies of a view cannot be compared, though the copies show the same elements
* `C96_lifetime_fails`: An iterator of a strided view is of no use once the view object is gone, even if the elements are still there, and shows other elements once another view is assigned to it

**C97 copies and conversions of views show the same elements**

* `C97_direct_init_fails`: `strided_array_view<T> w(v)` does not show the elements of `v`

**C98 arithmetic of indices**

* `C98_times_real_fails`: Multiplying by a fraction is not multiplying by it: half of four is nothing
* `C98_over_real_fails`: Dividing by a number between minus one and one divides by zero, though the quotient may well be an index

**C100 an input file's values reach the program**

* `C100_size_fails`: is false for sizes: "throws exception if key is not found", says the documentation of `get_size`, but a key missing from the file has size 0. For every file and standard key.
* `C100_returns_fails`: is false for a file that returns 20 values or more: they fill the Lua stack, and the constructor pushes `hydro` beyond it, which is undefined.
* `C100_leak_fails`: is false for a file whose `mesh` is not a table: opening accepts it, and every lookup below it throws and leaves a value on the Lua stack. After 20 or more of them, registering a global table is undefined behaviour.

**C101 functions taken from an input file stay callable**

* `C101_reference_fails`: is false for wrappers made from a variable: the wrapper keeps a copy of the result alive and calls through a reference to the variable, so after the variable is gone the call is undefined, for every function and arguments.

**C102 an array is what it was made from**

* `C102_single_brace_fails`: is false for `dimensioned_array__` made from one value in braces: `{v}` is a list of one element, and for every other size it fails the assertion; without assertions all elements but the first are indeterminate. Assigning `{v}` to it sets every element.
* `C102_convert_fails`: is false for the other conversions declared: making or assigning a `math::array` from one with another element type never compiles, and neither does assigning a `multi_array`, though assigning the same array in braces does.
* `C102_unchecked_fails`: is false without assertions: a list of numbers shorter than the array leaves the other elements indeterminate, and a longer one writes beyond the array, which is undefined.

**C103 flat polygons in space, moved and scaled**

* `C103_flat_fails`: fails for polygons that are not star shaped about their vertex mean: the plane area of the dart is 4, its area as a polygon in space is 6, and the two centroids differ.

**C104 what can be asked of a view**

* `C104_section_fails`: fails for static views: a section that a dynamic view of the same elements gives is not to be had from the static one
* `C104_row_fails`: fails for static views of more than one dimension: they have no rows
* `C104_strides_fails`: fails for static views: reading their strides is undefined
* `C104_assign_const_fails`: fails for static views: assigning one to a static view of const elements is undefined
* `C104_convert_elements_fails`: fails for strided views: a dynamic or static view made from one forgets the strides
* `C104_copy_fails`: fails for copies of strided views of rank one: `strided_array_view<T,1> w(v);` forgets the strides if `v` is named and not const; `w = v` and a const `v` keep them

**C105 views of arrays and containers stay inside them**

* `C105_carray_dims_fails`: fails for arrays of one dimension: a static view of five elements over an array of three is accepted and reads past the end, and so is a dynamic one

**C106 one operation for every input type**

* `C106_arguments_fails`: a temporary string given to functions that take it by value reaches only the first: the second gets what moving has left of it
* `C106_no_types_fails`: for a program without input types nothing of this compiles

**C107 the report of unresolved inputs**

* `C107_names_fails`: failed names are never forgotten: a target that was missing, was then supplied, and is resolved by the second attempt is still reported as unresolved by it

**C108 engines own their sources**

* `C108_again_fails`: registering the source an engine already has deletes it and keeps pointing to it
* `C108_shared_fails`: one source registered with two engines is deleted by both
* `C108_get_absent_fails`: so in a build without the checks the documented exception does not come

**C109 an element that throws leaves a usable vector**

* `C109_push_back_fails`: Violated: a `push_back` that throws leaves the vector one element longer, holding at its end a value that was removed from it earlier.
* `C109_assign_fails`: Violated: after an interrupted `assign`, and already when its very first assignment throws, the vector holds values that were no longer in it.
* `C109_erase_fails`: Violated: an interrupted `erase` has lost the removed element and holds another twice or moved-from.
* `C109_insert_fails`: Violated: an interrupted `insert` before the end has lost elements.
* `C109_swap_fails`: Violated: a `swap` that throws at once has exchanged the sizes, so that one vector has lost elements and the other shows values that were not in it.

**C110 reading JSON**

* `C110_text_after_zero_fails`: fails: the text `1`, a byte 0, `x` is accepted, and is no JSON text.

**C111 reading JSON from a stream**

* `C111_number_takes_a_byte_fails`: fails for numbers: from `1[2]` the number is read, and with it the bracket.

**C112 the scripts an input file names**

* `C112_rest_unread_fails`: fails in that a damaged file is not noticed: text after the first value is not looked at.

**C114 strings that are not UTF-8 when writing JSON**

* `C114_members_lost_fails`: (what does not hold) With `replace` and with `ignore` two members of an object may be written with the same name, and one of them is lost when the text is read.

**C115 layout of written JSON**

* `C115_indent_char_fails`: (what does not hold) Farther right blanks are written in place of the character asked for: here, with 300 tabs per level, a value without any string is written with a blank.
* `C115_wide_fails`: (what does not hold) With more than 1025 columns per level, writing an array or object that is not empty reads outside the string of indentation: undefined behaviour.
* `C115_zero_byte_fails`: (what does not hold) With 1025 columns per level a byte 0 is written in front of an element: no JSON.

**C116 comparing JSON values**

* `C116_nan_fails`: (what does not hold) With a NaN, `a <= b` and `b <= a` hold although the values are not equal and neither is less.
* `C116_wide_integers_fails`: (what does not hold) Integers from 2^63 on: 18446744073709551615 equals -1, and 0 < 5 < 18446744073709551615 < 0 if the 0 is the signed one, as reading "-0" gives it: `<` is no order.
* `C116_rounded_integers_fails`: (what does not hold) With integers that are no floating-point numbers `==` is not transitive: two different integers that are rounded to the same number `x` both equal it.

**C117 floating-point numbers in JSON**

* `C117_shortest_fails`: (what does not hold) The text is not always the shortest that is read as the number: 1e126 is nearer to this `double` than to every other one, and is written as 9.999999999999999e+125.
* `C117_nearest_text_fails`: (what does not hold) The text is not always the nearest of those with as many digits: 6.726687998321543e-198 is nearer to this `double` than 6.726687998321542e-198, which is written.

**C119 finding a value by a JSON pointer**

* `C119_long_fails`: (what does not hold) that no element of an array is out of reach: behind the element 2^31 - 1 `at` throws `std::out_of_range` for the pointer that leads to the element.
* `C119_strict_fails`: (what does not hold) that `at` finds values only where a pointer leads by RFC 6901: it takes the tokens ` 1`, `+1` and `-0` as the indices 1, 1 and 0.
* `C119_const_fails`: (what does not hold) that `operator[]` of a constant value is defined for all pointers: behind the last element its behaviour is undefined, and a member that is not there violates an assertion.

**C120 assigning through a JSON pointer**

* `C120_defined_fails`: (what does not hold) that `v[ptr]` throws for the index -1: on an empty array the number of elements to be made wraps around to 0, and the behaviour is undefined.

**C121 a JSON patch made by diff**

* `C121_nan_fails`: (what does not hold) that `s.patch(diff(s, t)) == t` also if there is a NaN in `t`: then the patch ends, but no value is equal to `t`.
* `C121_long_fails`: (what does not hold) that `s.patch(diff(s, t)) == t` also for longer arrays: if `t` is `s` and one more element behind 2^31 or more, `std::out_of_range` is thrown.

**C122 the operations of a JSON patch**

* `C122_remove_fails`: (what does not hold) that removing what is not there is an error: below a number it is not, and nothing is done.
* `C122_parents_fails`: (what does not hold) that adding below what is not there is an error: only for the first token of a pointer it is; below it objects and arrays are made, and a null becomes an object or array.
* `C122_index_fails`: (what does not hold) that the last token of the path of `add` and `remove` is an array index of RFC 6901: it may begin with zeros, which no other token may.
* `C122_defined_fails`: (what does not hold) that an operation that cannot be performed makes `patch` throw: adding below a number violates an assertion, and with the index -1 into an empty array the behaviour is undefined.
* `C122_move_fails`: (what does not hold) that a value cannot be moved into itself: it is, after a new object has been made in its place.

**C124 flattening JSON values**

* `C124_zero_fails`: (what does not hold) that everything but empty objects and arrays comes back from `flatten` and `unflatten`: of an object with a member `0` an array is made, and if there are other members an exception may be thrown.

**C125 reading CBOR**

* `C125_negative_fails`: (what does not hold) A negative number below -2^63, which RFC 7049 allows, is neither read as what it is nor refused: the value is 2^64 more, a number that is not negative.
* `C125_accepts_fails`: (what does not hold) Texts that are not items of RFC 7049 are read as values: a string whose pieces are in pieces themselves; a text string that is not UTF-8; an array, or a map, whose size is given as 2^64-1 and which ends at a mark after fewer elements.
* `C125_quiet_fails`: (what does not hold) `allow_exceptions = false` does not keep exceptions away: they come from a size beyond `max_size()`, and from a string said to be longer than `max_size()`, to which characters are appended after the end of the input.

**C126 writing CBOR**

* `C126_standard_fails`: (what does not hold) Strings are written as text strings even if they are not UTF-8: the result is then no item.

**C128 reading MessagePack**

* `C128_quiet_fails`: (what does not hold) `allow_exceptions = false` does not keep exceptions away if `max_size()` is below 2^32: a size beyond it throws.

**C129 writing MessagePack**

* `C129_standard_fails`: (what does not hold) A string of 2^32 bytes or more, and an array or object of 2^32 elements or more, is written without its first bytes – the type and the length are missing – and nothing is reported: only the characters are written, or the elements.

**C130 reading BSON**

* `C130_size_fails`: (what does not hold) The size at the front of a document is not looked at: any four bytes do, although the BSON specification has the number of bytes there.
* `C130_accepts_fails`: (what does not hold) Texts that are no documents of the BSON specification are read as values: a truth value that is neither 0 nor 1; a string that does not end with 0; a string that is not UTF-8; an array whose elements have other names than "0", "1", …
* `C130_silent_fails`: (what does not hold) Exceptions allowed, an input that ends where a string should end with its zero byte is no error: `from_bson` returns a value of type `discarded`. The elements before can be any.

**C131 writing BSON**

* `C131_utf8_fails`: (what does not hold) Strings that are not UTF-8 are written all the same, and the bytes are no document of the BSON specification; nothing is reported.
* `C131_read_back_fails`: (what does not hold) What `to_bson` returns cannot always be read with `from_bson`: the length of a string of 2^31 - 1 bytes or more (up to 2^32 - 2) is written as a negative number, without a word, and refused when it is read.

**C132 reading UBJSON**

* `C132_accepts_fails`: (what does not hold) Texts that are no values of the UBJSON specification are read as values: a string with a length below 0; a string that is not UTF-8; arrays of "type" 0, and empty ones of a type that does not exist.
* `C132_complete_fails`: (what does not hold) The mapping is not "complete in the sense that any UBJSON value can be converted to a JSON value": numbers of high precision – type 'H', then a text with the digits – are an error.
* `C132_linear_fails`: (what does not hold) Reading is not "linear in the size of the input": nine bytes suffice for an array of any number of elements below 2^31.
* `C132_end_fails`: (what does not hold) `parse_error.110` is not thrown for every input that ends prematurely: for one that ends where the size of a container should be, it is `parse_error.113`, said to be for strings.
* `C132_quiet_fails`: (what does not hold) `allow_exceptions = false` does not keep exceptions away: a size beyond `max_size()` throws `out_of_range.408` all the same.

**C133 writing UBJSON**

* `C133_type_fails`: (what does not hold) Not every value can be written: "types" without sizes (`use_type` without `use_size`) end in an assertion for every array and every object that is not empty; what is left are the values that are written as without types.
* `C133_utf8_fails`: (what does not hold) Strings that are not UTF-8 are written all the same, and the bytes are no value of the UBJSON specification; nothing is reported.

**C134 walking through a JSON value**

* `C134_arrow_fails`: (what does not hold) `it->` is not always `*it`: at an iterator of null before the end it gives the null where `*it` throws.
* `C134_difference_fails`: (what does not hold) The difference of iterators of two different values is not refused, as comparing them is: that of two numbers is a number, that of two arrays undefined.

**C135 removing elements of a JSON value**

* `C135_empty_range_fails`: (what does not hold) Erasing an empty range is not always without effect, as the documentation says: of a number it throws.

**C136 adding elements to a JSON value**

* `C136_insert_range_fails`: (what does not hold) `insert` of all elements of an object, or of a number, into an array inserts nothing, and does not say so.
* `C136_insert_members_fails`: (what does not hold) `insert` of an object's own members is not refused, as it is for an array, but undefined.
* `C136_update_null_fails`: (what does not hold) A null is an empty object after an update that is refused; and the update of a null with itself is not refused, as that with another null is.
* `C136_push_back_fails`: (what does not hold) A null added to itself gives an array of an empty array, not of null.

**C137 JSON values from lists in braces**

* `C137_array_fails`: (what does not hold) A list of values in braces is not always an array of these: a list of arrays that each begin with a string and have one more value becomes an object, and the empty list too.
* `C137_object_fails`: (what does not hold) Of two members of one name the second is lost and nothing is said.

**C138 C++ values through JSON and back**

* `C138_round_trip_fails`: (what does not hold) A pair of pairs of a string and a number cannot be read back; nor can a pair of two vectors of strings, if both have two elements, though it can if one has three.
* `C138_multimap_fails`: (what does not hold) A multimap with a key twice comes back with the first value only.
* `C138_text_fails`: (what does not hold) A number that is not finite is not given back from a text: it is written as null.

**C139 reading a JSON value as a C++ type**

* `C139_integers_fails`: (what does not hold) A number the type cannot hold is not reported: 300 is read as 44, -1 as the greatest unsigned number, `2 ^ 63` as a negative one.
* `C139_floats_fails`: (what does not hold) Reading a number from a document as an integer can be undefined: `1e30` as an `int`.
* `C139_bool_fails`: (what does not hold) Whether `true` is a number depends on the type asked for: it is 1 as `int`, `float` or `unsigned char`, and refused as `int64_t`, `uint64_t` and `double`.
* `C139_rest_fails`: (what does not hold) Elements an array, pair or tuple has no place for are dropped without an error; a tuple of nothing can be read from anything.
* `C139_table_fails`: (what does not hold) The other maps are read from arrays of pairs: of two pairs with the same key the second is dropped without an error, and so is what a pair has after its second element.
* `C139_get_to_fails`: (what does not hold) These five are left neither old nor new: a forward_list with the elements behind the one that cannot be read, a valarray of the new length with zeros from there on, an array with old elements from there on, a map with the entries before.

**C140 pointers and references to what a JSON value holds**

* `C140_pointer_fails`: (what does not hold) So more than one of the pointers can be had of one value.
* `C140_read_fails`: (what does not hold) A greater one is read as a negative number: `2 ^ 64 - 1` as -1.
* `C140_write_fails`: (what does not hold) A negative number written so to an unsigned one – any number read from a text without a sign is one – is a great positive number for everything else, and in the text.

**C142 decoding zlib streams**

* `C142_odd_fails`: (what does not hold) Symbols that must not occur are no error: here `a` is followed by the symbol 286, and the stream is decoded to `a`.
* `C142_cut_fails`: (what does not hold) A stream that is cut off is no error: bits behind the end are taken to be zeros. Here there is only the beginning of a block, and not all of the code for its end, and no bytes are decoded without complaint.
* `C142_checksum_fails`: (what does not hold) The check sum at the end of a stream is not looked at: here is the stream of no bytes with the right one and with a wrong one.

**C143 hostile zlib streams**

* `C143_void_fails`: (what does not hold) A stream can make the decoder read bytes that it has not written: the distances 30 and 31, which the fixed code has, are taken for 0. Here `a` is followed by a copy of three bytes from there.
* `C143_hang_fails`: (what does not hold) A stream of 15 bytes on which decoding does not end, though nothing more is written: the code 0 is the symbol 286, that is a copy of no bytes, and behind the end of the stream there are zeros.
* `C143_flood_fails`: (what does not hold) A stream of 13 bytes, cut off, that makes the decoder write byte after byte until the size of the buffer is no longer an `int`: undefined behaviour, if there is memory for that much.
* `C143_empty_fails`: (what does not hold) A buffer that grows must not be empty at first: twice nothing is nothing, and making room does not end. Here one byte is stored.

**C144 the scanlines of a PNG picture**

* `C144_assert_fails`: (what does not hold) A header may say that there are colours of 4 bits, which the format does not allow; then an assertion fails.
* `C144_unscaled_fails`: (what does not hold) Nor are grey and alpha of 4 bits allowed, but they are accepted, and the greatest grey does not become 255: a white pixel is nearly black.

**C145 interlaced PNG pictures**

* `C145_null_fails`: (what does not hold) That there is no memory for a picture is not noticed if it is interlaced: if the first pass is in the data, bytes are written at a null pointer. Of pictures of 2^31 bytes or more this comes however much memory there is.

**C146 PNG files**

* `C146_crc_fails`: (what does not hold) The checks of the chunks are not looked at: a file with one of them changed is read as well.
* `C146_index_fails`: (what does not hold) A pixel whose index is not less than the number of entries of the palette is not refused: the bytes given back for it are whatever was in the memory.
* `C146_length_fails`: (what does not hold) The length of a chunk is not trusted to be less than 2^31, but if it is not, the chunk is not refused either: reading goes on behind the first 128 bytes of the file (or the next multiple of 128), wherever that is in the chunk.
* `C146_depth_fails`: (what does not hold) Depths that PNG does not have are read: grey with alpha of 4 bits each is accepted, and grey is not spread over 0 to 255 then. With red, green and blue of 4 bits an assertion fails.

**C147 any file read as a PNG file**

* `C147_void_fails`: (what does not hold) Reading a file can read memory that was never written: here one grey pixel, where the compressed data has a copy from distance 0.
* `C147_null_fails`: (what does not hold) When there is no memory for an interlaced picture, nothing says so: its pixels are written to a null pointer. The same picture that is not interlaced is an error. Here it has 80 times 80 pixels of 1 bit, and there is memory for 5000 bytes at once.
* `C147_hang_fails`: (what does not hold) Reading a file of a hundred bytes need not end: however many rounds there are, it is not finished.
* `C147_flood_fails`: (what does not hold) Another one of less than a hundred bytes makes the size of a buffer greater than any `int`, which is undefined behaviour, if there is memory for that much.

**C148 comparing PNG files as images**

* `C148_index_fails`: (what does not hold) A file whose pixels have indices beyond its palette is read without an error, and comparing it with itself compares bytes that were never set.

**C150 filtering JSON while it is read**

* `C150_member_fails`: (what does not hold) A number, string or other simple value, or an array, that is rejected as the member of an object is not skipped: the key stays, with a discarded value. Of `{"a":1}`, without numbers, `{"a":<discarded>}` is left.
* `C150_element_fails`: (what does not hold) An object that is rejected at its end as the element of an array is not skipped: a discarded value stays. Of `[{}]`, without ends of objects, `[<discarded>]` is left.
* `C150_again_fails`: (what does not hold) An object that is rejected as the value of a key that has occurred before takes the value read before away with it. Of `{"a":1,"a":{}}`, without objects at depth 1, `{}` is left and not `{"a":1}`.
* `C150_skipped_fails`: (what does not hold) What is within an array or object rejected at its start is not skipped for the callback: it is asked about the arrays and objects inside, about the keys, and about simple values directly within an inner array or object it accepts. In `[[1]]` a callback that rejects depth 0 is still told of the inner array and of the number.

**C151 the memory of the arrays of a grid**

* `C151_delete_fails`: (what does not hold) Memory given to the `addVectorData` that does not copy is released by the grid, with `delete[]`: when the caller releases it after the grid behaviour is undefined, and it is so when the grid is destroyed if the memory does not come from `new[]`, as that of a `std::vector` or an array on the stack.
* `C151_again_fails`: (what does not hold) When the `addVectorData` that does not copy is called again with the same name and the same memory, as for every step of a simulation, the array replaced releases the memory, and to look at the new one is undefined.
* `C151_leak_fails`: (what does not hold) Copied data are never given back: after any number of steps that add an array under one name, and the end of the grid, the arrays of all steps are still there.

**C152 the files a grid is written to**

* `C152_serial_fails`: (what does not hold) that the grids of all processes are kept when the output is serial: after `setOutputSerial` all processes write to `f.vtu`, which then has the grid of one of them.
* `C152_write_fails`: (what does not hold) that `write(f, 1)` writes the grids of all processes: unless `writeParts` came before, all of them write to `f_0.vtu`, also if the object was made with the number of the process, and `f.pvtu` lists this one file.
* `C152_single_fails`: (what does not hold) that a single process writes the same files with either function: `writeParts(1, 0, 0, f)` writes `f.pvtu` and `f_0.vtu`, and `writeUnstructuredGrid` `f.vtu`.

**C153 access to elements of a JSON value**

* `C153_read_fails`: (what does not hold) that reading does not change a value: `operator[]` of a value that is not constant makes a null of what is not there, a member or elements up to the one asked for, and an object or an array of null.
* `C153_const_fails`: (what does not hold) that `operator[]` of a constant value is defined for what is not there: at the first step without an element, a member that is not there violates an assertion, and an element behind the end is undefined behaviour; only a value of the wrong type is refused, with `type_error.305`.
* `C153_length_fails`: (what does not hold) that an assignment that is refused changes nothing, for all indices: with one of 2^59 - 1 or more `length_error` is thrown, and null is then an empty array; and that an assignment is defined or refused: with the index 2^64 - 1 it is undefined behaviour.

**C154 a JSON value when reading into it fails**

* `C154_kept_fails`: (what does not hold) It is not so that a variable is as it was when reading into it has failed: after `[1,` it holds the array of 1.

**C155 a stream when writing a JSON value to it fails**

* `C155_unchanged_fails`: (what does not hold) The stream is not as before if `o << j` throws: the beginning of the text is in it, and what is written next follows that beginning.

**C156 where a JSON text is wrong**

* `C156_column_fails`: (what does not hold) In `[1 2`, end of line, `]` the error is at the fourth byte, in the first line; the column told is 0 and not 4: putting back an end of a line does not restore the column.

**C157 PGM and PPM pictures**

* `C157_scale_fails`: (what does not hold) The greatest value is not taken into account. A white pixel written as the value 1 of at most 1 and one written as the value 9 of at most 9 are not similar, and the white pixel 1 of at most 1 is similar to the dark grey 1 of at most 9.
* `C157_cut_fails`: (what does not hold) A file of which the end is missing is read without an error. Whatever file it is, comparing it with itself compares bytes that were never set.
* `C157_text_fails`: (what does not hold) Files that are no pictures compare as similar, whatever is in them: any two texts of at least four characters that begin with `P5`, or with `P6`, followed by neither white space nor a digit nor `#`.
* `C157_number_fails`: (what does not hold) A number of 2 to the 31 or more in the header overflows.

**C158 BMP pictures**

* `C158_cut_fails`: (what does not hold) A file that has been cut off is not refused: if there is nothing behind the header the picture is black.
* `C158_version_fails`: (what does not hold) A file of 16 bits per pixel or more whose header has 124 bytes, which is what version 5 of the format has, fails an assertion, wherever its pixels begin: the place is compared with the number of bytes taken from the buffer, and after 138 bytes the buffer of 128 bytes has been filled again.
* `C158_place_fails`: (what does not hold) The place of the pixels that the header gives is of no use for pictures of 24 bits per pixel: any other place than right behind the header fails an assertion.
* `C158_colour_fails`: (what does not hold) A file may name a colour that its palette does not have, and is read all the same: the samples of the pixel have never been written, and to compare the picture is undefined.
* `C158_old_fails`: (what does not hold) A file of the first version of the format, with a header of 12 bytes and a palette of two colours: 24 bytes are taken for the header when the size of the palette is found, no colour is read, and no sample is written.
* `C158_height_fails`: (what does not hold) A file whose height is -2^31: the absolute value of it is undefined.
* `C158_masks_fails`: (what does not hold) A file of 32 bits per pixel with masks of ten bits for each colour: a shift by a negative number.

**C159 Comparing pictures of different formats**

* `C159_alpha_fails`: (what does not hold) Two files of one picture may compare as different, though not one colour is different: if one of them has an alpha channel and the other has none, they do, even if all of it is opaque.
* `C159_order_fails`: (what does not hold) If one of the files is not read or refused but undefined, the order matters: behind a first file that is refused the second one is not read.

**C160 TGA pictures**

* `C160_empty_fails`: (what does not hold) Reading has no defined result exactly if the file says that it has a palette, that the palette has no entries, and all else in the header is as it should be: the first entry of a palette without entries is read.
* `C160_cut_fails`: (what does not hold) A file that has been cut off is not refused: if there is nothing behind the header of a file whose pixels are stored as they are, with 8, 24 or 32 bits each, there is a picture of the right size no sample of which has been set.
* `C160_first_fails`: (what does not hold) A palette that does not begin with entry 0 is not read as the format has it: of the file that gives the colours from entry 1 on and whose pixel is that entry, with red 30, the picture has red 1. The number of the first entry is taken for a number of bytes to be left out.
* `C160_columns_fails`: (what does not hold) That a file gives its columns from the right to the left, bit 4 of byte 17, is not looked at: the first column of the picture is the pixel that comes first in the file, for every width.

**C161 PSD pictures**

* `C161_matte_fails`: (what does not hold) A file with an alpha channel may have no defined result: if alpha of the first pixel is not 0 but at most 100 and so is red, a negative number that does not fit is converted to a byte, whatever the size of the picture. The colours are taken to have been laid over white.
* `C161_rows_fails`: (what does not hold) The number of bytes to be left out in front of packed channels overflows an `int` for a high picture, though the picture is not too large: there is no defined result.
* `C161_deep_fails`: (what does not hold) Packed samples of 16 bits are not read as such, though samples of 16 bits that are not packed are: a file whose channel has two bytes for each pixel, packed, is refused.
* `C161_cut_fails`: (what does not hold) A file that ends where its samples should begin, whatever its size says, is not refused: it is read as a picture that is black in all the channels it claims.

**C162 PIC pictures**

* `C162_bits_fails`: (what does not hold) A PIC file whose packet is not of 8 bits is not refused: its number of channels is used without having been set, so there is no defined result.
* `C162_memory_fails`: (what does not hold) If there is no memory for a PIC file, what should be there is written nevertheless.
* `C162_kind_fails`: (what does not hold) A PIC file without alpha whose first packet has a kind of runs that is not known is not refused: it is converted though it has been freed, and read where there is no memory. With alpha it is refused.
* `C162_cut_fails`: (what does not hold) A PIC file of red, green and blue that ends within its first pixel is not refused, whatever its size says: it is read where there is no memory.

## Properties proved in part


**C02 fixed_vector insert shifts the tail intact**

* `C02_insert_memmove_partial`: holds when elements are moved by `memmove` (trivially copyable types).
* `C02_insert_near_end_partial`: Element-wise moving is nevertheless right when at most one element is shifted (insertion at the end or before the last element), whatever the residue.
* `C02_insert_alias_partial`: With an aliasing argument at or before the insertion point the result is right.

**C04 fixed_vector equality is equality of contents**

* `C04_eq_same_size_partial`: holds when the sizes agree.

**C07 filter_iterator visits exactly the matching elements**

* `C07_increment_partial`: (what `++` does) From any position of the range, `++` moves to the first position at or after the current one whose element matches, or to the end.
* `C07_no_match_partial`: If nothing matches the traversal ends, but a non-empty range visits its first element although it does not match (the constructor does not search).

**C08 zip iterates in lockstep**

* `C08_simple_task_partial`: `simple_task` on at least two ranges of equal length `n` runs the function once per column, in order. Missing: the single-range call, see `C08_single_range_undefined`.

**C10 remove_duplicates removes every duplicate**

* `C10_grouped_partial`: If equal elements are neighbours (in particular if the sequence is sorted), every value is kept exactly once, in order of first occurrence.
* `C10_sorted_partial`: Sorted sequences are grouped, so the call is right on them.

**C12 path splitting round trips**

* `C12_remove_extension_partial`: `remove_extension` and `split_extension` are right for every path whose base name has a dot, and for every path without any dot.

**C13 split tokenises on the given delimiters**

* `C13_split_partial`: If the only white space in the string is among the delimiters, `split` returns exactly the maximal pieces between delimiters.

**C16 compound assignment accepts an alias of itself**

* `C16_array_scalar_alias_partial`: What `x op= x[k]` gives for `+=`, `-=`, `*=`: the elements after `k` are combined with the already updated `x[k]`.
* `C16_array_scalar_partial`: It is right when the scalar is a separate object, or the last element.
* `C16_dimensioned_partial`: `dimensioned_array`: right for every separate argument and every scalar, including one of its own elements.

**C17 scalar division divides each element**

* `C17_division_partial`: Over a field (exact arithmetic), dividing by a scalar divides each element, for both `a / s` and `a /= s`.

**C21 column-major ordering is a bijection**

* `C21_col_major_partial`: For shapes that read the same backwards (square matrices, cubes, ...) the ordering is a bijection onto the storage with the first index fastest.

**C25 matrix_vector computes alpha*A*x + beta*y**

* `C25_matrix_vector_partial`: correct for `beta = 1` and for single-column matrices

**C28 matrix exponential**

* `C28_total_partial`: For every non-zero real matrix of every size the computation succeeds (the denominator that is inverted is never singular).
* `C28_inverse_partial`: The result commutes with the matrix and `exponential(-A)` is its inverse.
* `C28_accuracy_partial`: In the infinity norm the result differs from the true matrix exponential by a relative error of at most `(1+2·10⁻¹³)^n - 1` where `n ≤ max 2 (4‖A‖)`; for matrices with `A¹³ = 0` it is exact.

**C31 averages and extrema**

* `C31_int_partial`: For `int` values with a non-negative sum below `2^31` all versions truncate the exact quotient.
* `C31_elementwise_partial`: Elementwise `min` and `max` of fixed-size arrays, whatever the result held before.

**C37 hexahedron volume and centroid**

* `C37_enclosed_partial`: The volume is the volume enclosed by the six faces (each face taken as the fan about its vertex mean) whenever the three triple products have the same sign, as they have for every parallelepiped and for hexahedra close to one.

**C39 array_view strides and linearisation**

* `C39_strided_container_partial`: for strided views, as far as it holds: if the container covers `total_size()` and no stride is negative, every contained index stays inside. (Missing: the constructor does not check this.)

**C42 multi-dimensional index comparisons**

* `C42_rank_one_partial`: for rank one, where it holds in full (missing: every larger rank, see `C42_lt_fails`)

**C43 view emptiness, checked access and equality**

* `C43_at_partial`: for `at()`, as far as it holds: on a view inside its buffer, a contained index yields the element at its address, any other index never yields an element. (Missing: the error is not an exception the caller can catch.)
* `C43_eq_partial`: for equality, as far as it holds: contiguous views of the same shape that stay inside their buffers compare equal exactly when they hold the same element at every contained index. (Missing: views of different shapes, and strided views, see the two failures above.)
* `C43_eq_strided_partial`: for equality of strided views, as far as it holds: strided views with the same positive extents (whatever their strides), inside their buffers and not starting at the same address, compare equal exactly when they hold the same element at every contained index. (Missing: a common start address, and different extents with the same number of elements.)

**C47 native-atomic operations return the updated value**

* `C47_undisturbed_partial`: as far as it holds: a native call returns the value its own update produced if no other update of the same variable takes effect between its fetch and its second read. (Missing: the other schedules, see `C47_returned_value_fails`.)

**C48 schemes agree and can be mixed**

* `C48_mixed_schemes_partial`: as far as it holds: threads may mix the compare-exchange, native and increment schemes freely on the same variables, under any memory order: memory is always the result of the updates executed one at a time, each thread's in program order, none lost and none applied twice. (Missing: the lock and serial schemes, see `C48_lock_mixed_fails`, and operands of another type, see `C48_mixed_types_fails`.)
* `C48_mixed_types_partial`: with an operand whose value is integral, the two forms agree

**C52 resolving is repeatable**

* `C52_repeatable_partial`: as far as it holds: resolving again without touching the sources changes no value and returns the same result, for value types whose moved-from state is the value itself (numbers and other trivial types) and for function types. (Missing: strings, vectors and other types that moving empties, see `C52_moved_default_fails`; the exact condition is `C52_repeatable_iff`.)

**C53 qualified names identify inputs**

* `C53_names_partial`: as far as it holds: namespaces without a colon, and no colon in names that have no namespace. (Missing: the other names, see `C53_names_fails`.)
* `C53_parameters_partial`: and true when the keys contain no question mark

**C54 init_value status**

* `C54_cache_partial`: as far as it holds: while the registry does not change, `valid()` reports the validator's verdict on the registry's value, after any sequence of calls on the init_value; it never throws, and false means that the value is rejected or not resolved. (Missing: a registry that changes after the verdict was cached, see `C54_stale_verdict_fails`.)

**C55 Lua calls leave the stack balanced**

* `C55_field_partial`: field access leaves the stack as it was if it was empty, and finds the entry
* `C55_throws_partial`: what a throwing operation leaves: everything that was on the stack is still there, below whatever the operation had pushed

**C57 Lua container conversions round trip**

* `C57_get_iff_partial`: for types without integers, strings and matrices the conversion succeeds exactly on the values that stand for something

**C58 assertion macros act exactly on failure**

* `C58_off_partial`: with checks off, each of the comparison checks still has the value of its condition and nothing else happens. Partial: not `OneOf` (see `C58_one_of_fails`), and the operands must change nothing (see `C58_twice_fails`); `Require`, `Check` and `Ensure` vanish

**C59 shape functions form a partition of unity**

* `C59_basis_partial`: the sums of `basis`, as far as it holds: every element but the 12-node one, every point (also outside the element), whatever the output vector held. (Missing: Quad_12_2D, see `C59_quad12_fails`.)
* `C59_tess16_partial`: for Tess16 with the member set as intended

**C60 shape functions interpolate nodes**

* `C60_kronecker_partial`: as far as it holds for `basis`: one at the own node, zero at the others. (Missing: Quad_12_2D, see `C60_quad12_fails`.)
* `C60_tess16_partial`: for Tess16 with the member set as intended

**C61 shape function partials are derivatives**

* `C61_basis_partial`: as far as it holds for `basis`: the coded partials are the partial derivatives, at every point. (Missing: Quad_12_2D, see `C61_quad12_fails`.)

**C62 isoparametric map reproduces affine fields**

* `C62_tess16_partial`: for Tess16 with the member set as intended

**C63 Jacobian determinant and inverse**

* `C63_inverse_3d_partial`: in 3D as far as it holds: symmetric matrices whose (1,0) entry is zero or whose (1,1) and (2,1) entries agree - in particular diagonal ones. (Missing: everything else, see `C63_inverse_3d_fails`.)

**C66 tensor-product elements of any order**

* `C66_quad_position_partial`: what `QuadN::physical_position` computes: only the first coordinate is mapped, and it is added to what the caller's vector held
* `C66_hex_position_partial`: what `HexN::physical_position` computes: only the first two coordinates are mapped, and they are added to what the caller's vector held

**C69 trivial strings round trip**

* `C69_round_trip_partial`: Every string without NUL that is shorter than the capacity is stored and read back unchanged, whatever the buffer held before. Missing: rejection of longer strings, see `C69_too_long_fails`.
* `C69_access_partial`: Character access: exact below the capacity, rejected above it...

**C70 encoded parameter defaults**

* `C70_own_key_partial`: as far as it holds: parameters with keys free of question marks and registered once keep their defaults, whatever else is registered before and after. (Missing: `C70_reregister_fails`, `C70_collision_fails`.)

**C71 Lua table and value registration**

* `C71_register_table_partial`: as far as it holds: the first registration of a top-level table under its own name makes that table available. (Missing: a different Lua name, a second registration; see below.)

**C72 fixed-order elements reproduce their polynomials**

* `C72_basis_partial`: for `basis`: interpolation of such a polynomial is exact. Partial: not Quad_12_2D, whose `basis` leaves entries unset, see `C72_quad12_basis_fails`

**C75 build options select the assertion behaviour**

* `C75_macros_partial`: what does work: the macros can be defined on the command line (as the tests do), or the two action macros through CMake variables of their own names. Partial: not through the documented options

**C76 tuple arithmetic is element by element**

* `C76_op_equal_partial`: for the four assignment forms with a tuple on the right, as far as it holds: if the targets are distinct cells and no element of `rhs` is an *earlier* element of `lhs` (sharing the same position, as in `t += t`, is fine), the call is defined exactly when every element operation is, and then every element of `lhs` becomes the converted result of the operation on the original operands and nothing else changes. (Missing: operands that share cells at different positions, see `C76_shared_fails`.)
* `C76_scalar_equal_partial`: for `t op= scalar`, as far as it holds: the scalar is not an element of the tuple (or only its last one). (Missing: a scalar that is an earlier element of the tuple, see `C76_scalar_alias_fails`.)

**C77 scripts are found beside the input file**

* `C77_scripts_partial`: For an input file named by a path with a directory part, the scripts are the listed names, in order, each in the directory of the input file (everything before the last slash).

**C79 interval timers**

* `C79_last_stop_partial`: as far as it holds: with exactly one stop since the last start, the duration is the time between them. (Missing: a timer stopped again, see `C79_second_stop_fails`.)

**C82 exported meshes are the mesh**

* `C82_create_points_partial`: as far as it holds: for a mesh whose vertices are visited in the order of their numbers, point number i of `createMesh` is vertex number i, so that the cells refer to the right points. (Missing: any other order, see `C82_create_order_fails`.)

**C84 error macros are statements**

* `C84_statements_partial`: as far as it holds: a program in which no `assert_true`, no `short_warning` (and no `if` without `else`) stands directly before an `else` is read by the compiler and does what is written, each macro acting as one statement; in particular the `THROW_...` macros are statements anywhere. (Missing: see the two theorems below.)

**C85 command line option registry**

* `C85_caption_partial`: (captions) as far as it holds: a group registered before everything else under its key keeps its caption through all later registrations. (Missing: a group registered after an argument of the same key, and a second group, see below.)

**C86 floating point results are close to the exact ones**

* `C86_polygon_partial`: (polygons). The signed area of a polygon with any number of corners: the error is relative to products of *coordinates*, so it grows with the distance from the origin. What is missing is a bound relative to the size of the polygon, as for triangles: there is none (`C86_polygon_fails`).
* `C86_tetrahedron_partial`: (tetrahedra). The determinant behind the volume is expanded in the coordinates themselves: with coordinates up to `M` the absolute error is at most `24 ((1+u)^25 - 1) M³`, whatever the size of the tetrahedron. What is missing is a bound relative to the size of the tetrahedron: there is none (`C86_tetrahedron_fails`).

**C88 the Lua stack dump shows the stack**

* `C88_last_row_partial`: Reporting the last row prints the number of values on the stack and the value on top, and leaves the Lua state as it was, whenever the stack is not empty.

**C91 multidimensional array arithmetic and comparison**

* `C91_division_partial`: Dividing by a scalar divides every element, in every field (missing: integers, see `C91_integer_division_fails`).

**C93 error reports tell where and what**

* `C93_here_str_partial`: where file names have no colon, the text of `HERE_STR` tells file, function, line and message

**C95 type predicates tell what they say**

* `C95_callable_partial`: `is_callable` tells whether objects of a class can be called, provided what lookup finds is neither private nor ambiguous and the class is not final
* `C95_special_decay_partial`: `special_decay` of a temporary reference wrapper is the reference; of a type that is no wrapper, the decayed type

**C96 iterating over a view**

* `C96_strided_partial`: A strided view with positive extents, of any rank and strides, is iterated in row-major order: from `begin` to `end` forwards, from `rbegin` to `rend` backwards

**C103 flat polygons in space, moved and scaled**

* `C103_flat_centroid_partial`: When the mean of the vertices sees every edge in the same orientation, the centroid of the flat polygon in space is the plane centroid, put in place.

**C104 what can be asked of a view**

* `C104_convert_elements_partial`: A view made from a dynamic or a static one shows its elements in the same row-major order, and no others
* `C104_through_dynamic_partial`: What a static view does not give, the dynamic view made from it does: every row and every section that fits

**C107 the report of unresolved inputs**

* `C107_names_partial`: the first report, and the first after clearing the registry, names exactly the unresolved targets. (Missing: later reports, see `C107_names_fails`.)

**C108 engines own their sources**

* `C108_owned_partial`: if no source is registered twice, with one engine or with several, nothing undefined happens, each engine has the source last registered with it, and a source has been deleted exactly when it has been registered and no engine has it any more; for any number of engines and any order of registrations, replacements and destructions

**C109 an element that throws leaves a usable vector**

* `C109_strong_partial`: Strong guarantee, where it holds: operations that only add at the end (other than `push_back`) or only remove there leave the vector's size and elements as they were, whatever the throwing assignment leaves in its target.

**C110 reading JSON**

* `C110_reads_partial`: (texts without a byte 0): accepted exactly if a JSON text.

**C111 reading JSON from a stream**

* `C111_sequence_partial`: Values one after the other are read one after the other, however many there are, if every number is followed by white space.

**C112 the scripts an input file names**

* `C112_whole_file_partial`: A file that holds one JSON text: the scripts are those of the value the text stands for.

**C115 layout of written JSON**

* `C115_indent_char_partial`: (what holds) If the deepest line has at most 512 columns of indentation, all of them are the character asked for.

**C116 comparing JSON values**

* `C116_trichotomy_partial`: (what holds) Without NaNs exactly one of `a < b`, `a == b`, `b < a` holds (that no two hold is `C116_exclusive`), and `a <= b` is `a < b` or `a == b`.
* `C116_equal_partial`: (what holds) Values are equal exactly if they stand for the same: numbers by their value, however they are stored, everything else literally – provided the integers have at most 63 bits and a sign, and are floating-point numbers if there are any of these, and there is no NaN.
* `C116_less_partial`: (what holds) On the same conditions `a < b` is the documented order of what the values stand for.
* `C116_transitive_partial`: (what holds) On the same conditions `<` is a strict order in which equal values can be exchanged: what `std::map`, `std::sort` and the like ask for.

**C117 floating-point numbers in JSON**

* `C117_short_partial`: (what holds) The text has at most 17 significant digits and no zero at their end, and there is hardly a shorter or a better one: a number with fewer digits lies outside the interval between the middles of the gaps to the neighbours, or within it closer to an end than 2^-60 of the number, and except for those close to an end no number with as many digits is nearer by more than that.

**C119 finding a value by a JSON pointer**

* `C119_rfc_partial`: (what holds) Where a pointer leads by RFC 6901, `at` finds the value, as long as no array has more than 2^31 elements.

**C120 assigning through a JSON pointer**

* `C120_defined_partial`: (what holds) `v[ptr]` is never undefined, unless a token of the pointer is the number -1.

**C121 a JSON patch made by diff**

* `C121_round_trip_partial`: (what holds) `s.patch(diff(s, t))` ends and gives a value equal to `t`, for all values with arrays of at most 2^31 elements and without a NaN in `t`.

**C122 the operations of a JSON patch**

* `C122_rfc_partial`: (what holds) An operation that can be performed by RFC 6902 is performed: `patch` gives the value the RFC asks for, as long as no array has more than 2^31 elements.
* `C122_patch_partial`: (what holds) A patch all of whose operations can be performed, one after the other, by RFC 6902 gives the value the RFC asks for, as long as no array gets more than 2^31 elements.
* `C122_add_partial`: (what holds) An operation `add` whose path without its last token leads to an object or an array ends with a value exactly if the last token is no array index out of range, and the value is the document with the given value there and nothing else changed.

**C126 writing CBOR**

* `C126_standard_partial`: (what holds) What `to_cbor` returns is an item of RFC 7049 with the value written – integers that are not negative are unsigned ones – provided the strings are UTF-8, and fewer than 2^64 bytes are written.

**C129 writing MessagePack**

* `C129_standard_partial`: (what holds) What `to_msgpack` returns is an object of the MessagePack specification with the value written – integers that are not negative are unsigned ones – provided no string or name has 2^32 bytes or more, and no array or object 2^32 elements or more.

**C131 writing BSON**

* `C131_standard_partial`: (what holds) What `to_bson` returns is a document of the BSON specification with the members of the object, all integers signed, provided that strings and names are UTF-8 and that fewer than 2^31 bytes are written. (A document of more bytes does not exist: its size has no place in four bytes.)
* `C131_read_back_partial`: (what holds) Writing an object and reading the bytes, on any two machines, yields the object, whatever bytes the strings hold, NaN and infinities included; only all integers are signed afterwards. The strings must have less than 2^31 - 1 bytes each; the document can have more. Without `strict` what follows is left in the input.

**C133 writing UBJSON**

* `C133_standard_partial`: (what holds) What `to_ubjson` returns is a value of the UBJSON specification, the value written – the integers from 128 to 255 unsigned, all others signed – provided the strings are UTF-8.

**C135 removing elements of a JSON value**

* `C135_range_partial`: (what holds) `erase(first, last)` of an array or object removes the elements from `first` up to but not including `last`, no other; the iterator given back is at the element after. An empty range removes nothing.

**C136 adding elements to a JSON value**

* `C136_insert_range_partial`: (what holds) `insert` of the elements between two places of another array puts in just these.
* `C136_insert_members_partial`: (what holds) `insert` of members of another object adds those whose names are new and keeps the values there are.
* `C136_push_back_partial`: (what holds) `push_back` and `emplace_back` add the value at the end of an array, and make null an array of it; the value added is the one there was before the call, also if it is the array itself. Anything else is refused.

**C137 JSON values from lists in braces**

* `C137_array_partial`: (what holds) A list of values in braces becomes an array of these values if not all of them are arrays of a string and one more value; if `array` is asked for, it does so in any case.
* `C137_object_partial`: (what holds) A list of arrays of a string and one more value becomes an object, unless an array is asked for: the member of each name has the value that comes first with it, and there are no others. Any other list is refused if an object is asked for (301).

**C138 C++ values through JSON and back**

* `C138_round_trip_partial`: (what holds) A value of any type, made a JSON value, is given back by `get<T>()`, unless it has a pair or tuple (or an entry of a map whose keys are no strings) with all components sequences of two with a string in front, or a multimap with a key twice. Types are nested to any depth.

**C139 reading a JSON value as a C++ type**

* `C139_get_to_partial`: (what holds) If `get_to` fails, the variable has its old value: unless it is a forward_list, a valarray, an array or a map with other keys than strings.

**C140 pointers and references to what a JSON value holds**

* `C140_pointer_partial`: (what holds) `get_ptr` gives a pointer exactly if the value is of the type asked for, except that `number_integer_t` is also given for unsigned numbers.

**C143 hostile zlib streams**

* `C143_ends_partial`: (what holds) Decoding ends - after at most as many rounds as there are bits in the stream, and bytes in the buffer - unless the stream has a symbol 286 or 287.
* `C143_malloc_ends_partial`: (what holds) The same for a buffer that grows, which never has more than 2^31 bytes.

**C147 any file read as a PNG file**

* `C147_ends_partial`: (what holds) Reading a file ends, unless its compressed data has one of the symbols 286 and 287, which must not occur.

**C148 comparing PNG files as images**

* `C148_any_partial`: (what holds) Whatever two files are compared, the answer is yes or no, unless reading one of them fails an assertion, has undefined behaviour or does not end, or one of them has a palette: then bytes may be compared that were never set.

**C150 filtering JSON while it is read**

* `C150_sifts_partial`: (what holds) What a callback without a state rejects is skipped, as if it had never been read – elements of arrays that are rejected at once, arrays also at their ends; members by their keys, and members that are objects – provided nothing is rejected otherwise, and no key occurs twice in an object; rejected as a whole, null is returned.

**C151 the memory of the arrays of a grid**

* `C151_shared_partial`: (what holds) Data added without copying are seen in the grid as they are in the memory of the caller at the time of the look, whatever is written there and added to the grid, before or after, under other names – as long as no other array is made of the same memory in this way.
* `C151_kept_partial`: (what holds) As long as nothing is added by the `addVectorData` that does not copy, the memory of the caller is the caller's: the grid can be destroyed, and releases none of it.

**C156 where a JSON text is wrong**

* `C156_column_partial`: (what holds) If no end of a line follows directly on the byte told, the column told is the number of bytes behind the last end of a line in the text up to and with that byte; at the end of the text it is one more.

**C160 TGA pictures**

* `C160_any_partial`: (what holds) Whatever is in a file, reading it as a TGA picture ends: with an error, or with a picture of the width and height that the file says and one to four channels, unless the file says that it has a palette and that the palette has no entries.

**C161 PSD pictures**

* `C161_any_partial`: (what holds) Whatever the bytes of a file are, if it claims fewer than four channels and the numbers of bytes of its rows can be counted, loading it as PSD ends with an error or with a picture of the size that the file says, of four samples for each pixel, and nothing outside of that memory is written.

**C162 PIC pictures**

* `C162_any_partial`: (what holds) Whatever the bytes behind its packets are, a PIC file that has alpha and for which there is memory is refused or gives a picture of the size that it says: reading ends, and nothing outside of that memory is written.
