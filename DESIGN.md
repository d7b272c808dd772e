# A Lean 4 model of go-native-netcdf

This directory holds a hand-written Lean 4 model of the Go packages
`internal`, `netcdf`, `netcdf/util`, `netcdf/cdf` and `netcdf/hdf5` of
batchatco/go-native-netcdf, the list of properties a user relies on
(`properties.jsonl`), and kernel-checked proofs about the model.

## Layout

* `lean/Verif/Base/*`   byte strings, outcomes, fixed-width codecs, parsers.
* `lean/Verif/Model/*`  the model, function by function. Every definition cites
  the Go file and lines it models and names its simplifications.
* `lean/Verif/Spec/*`   small specifications written without the model
  (what a sub-box is, what row-major order is, what a shuffle is, ...).
* `lean/Verif/Lemmas/*` helper lemmas.
* `lean/Verif/Props/*`  the property theorems, one group per file, each followed
  by an `example` showing that a concrete case meets its hypotheses.
* `seeded/LOG.jsonl`    mutation experiments.
* `MANIFEST.json`       property -> theorem map.

## Conventions of the model

* A byte string is `List UInt8`. Numbers are bit patterns (`Nat` below
  `256^width`); floating point values are carried as their bits.
* Every Go function that can fail returns `Res α`: `ok`, `err` (a Go `error`
  value, whether returned or thrown with `thrower.Throw` and turned back into a
  value by `thrower.RecoverError`), or `panic` (a Go run-time panic: index out of
  range, nil dereference, failed type assertion, `make` with an absurd length,
  integer division by zero).
* Go slices/maps are lists and association lists. Where the Go code ranges over
  a map the model takes the iteration order as an argument.
* File contents are byte lists, and `Seek`+`Read` is `drop`/`take`.
* 64-bit wrap-around is modelled where the code can reach it (reader side).

## Plan per property

| id | what is modelled | how it is proved |
|----|------------------|------------------|
| C01 | CDF writer state, `AddVar`, `writeAll`; reader `readHeader`, `getVarCommon`, `convert` | write/parse lemmas per header item, composition by induction on the lists of dimensions/attributes/variables; data by induction on rank |
| C02 | `writeAttributes`, `getAttr`, `getAttrList` | round-trip lemma per element type, induction on the key list |
| C03 | `computeVarSize`, `writeVar`, `writeData` | length lemmas; running-sum induction |
| C04 | `scalarKind`, `checkV5Attributes`, `writeNumber` | invariant over op sequences; negation for v5 global attributes |
| C05 | `AddVar` dimension registration | invariant over op sequences; negation for names with NUL |
| C06 | `AddVar` on error | negation with witness; partial theorem for the rejections that do leave the state alone |
| C07 | `IsValidNetCDFName` over a model of Go's UTF-8 decoding | direct, for all byte strings, Unicode tables beyond ASCII are parameters |
| C08 | `binary.Write/Read` of fixed-width integers | induction on the width |
| C09,C10,C11 | `getSlice`, `getSliceMD`, `SliceMD` | list lemmas on `drop`/`take`; induction on rank; negations |
| C12 | `newRecordReader` | induction on the number of records; negation for `begin>=1` |
| C13,C14 | `makeFillValueReader`, `FillValueReader.Read` | index arithmetic; induction on the list of read sizes |
| C15,C16,C17 | header parser on arbitrary bytes | parser-prefix calculus; negation witnesses |
| C18 | `getKind`, `Open` | case analysis |
| C19,C40 | reference counts, shared-seek reader under lock | invariants over histories / over all interleavings |
| C20,C21 | `OrderedMap` | refinement; permutation argument |
| C22 | reader state | CDF: state is never written; HDF5: invariant on what each variable object holds between reads; negation |
| C23,C24 | type names | induction on type structure |
| C25 | `checksum.go`, `computeChecksumStream` | equality of the two computations by induction |
| C26 | superblock | round trip, prefix refusal |
| C27,C28 | filters | index arithmetic; negations |
| C29 | `layoutReader` | bytes as a function of the index; induction on the dimensions; negation for rank 3 |
| C30,C31 | chunk B-tree walk, `newRecordReader` | induction on tree; positional spec |
| C32..C37 | message builders and parsers | round-trip lemmas |
| C38,C41,C42,C43 | writer `Close` and reader `New` | composition of the above; for values of user-defined types C41 and C42 follow from C61 |
| C39 | `canonicalizePath`, `GetGroup` | induction on path components |
| C49 | `createDimensionScales`, `ListDimensions`, `GetDimension` | the dimension scales among the members of the root object; negations |
| C44,C50 | `GetVarGetter`, `SliceMD` | positional spec; the invariant of C22; negations |
| C45 | `Close` | direct; negation |
| C46 | object header reader, every modelled message | the format specification as an encoder; parse-after-encode lemmas, induction on the list of messages |
| C51 | `printDatatype` and the `parse` functions of all classes, `readAttribute` | the types of the format as an inductive type with an encoder; mutual induction on types and member lists |
| C52,C53,C54 | `New`, `readSuperblock`, `readSymbolTable`, fractal heaps, B-trees of version 2 | `Holds`, an inductive relation between a file and what its parts say; induction on it with enough fuel; negations for shared objects, deep symbol tables and large nodes |
| C55 | `alloc` of all type managers, `getSlice`, `parseAttr`, `undoScalarAttribute` | `Shown`, an inductive relation between types, bytes and values; mutual induction on it; the names of Go types (`cast`) are a parameter, which C57 fills; negations |
| C56 | `GetVariable`, `getDimensions`, `getAttributes` over `Model/H5TypedApi` | C52 for the tree, C55 for the values, induction on the attribute list and on the tree; negations |
| C57 | the printers of all type managers, `findSignature`, `GetType`, `GetGoType`, `ListTypes`, `cast` | the order of map iteration is a parameter at every place of the tree of calls; readers for the texts show that different types have different texts; induction on the types and on the number of names left; negations |
| C58 | `getSlice` and the functions of `GetVarGetter` | the functions of internal/slicer.go recover thrown errors, so that these are outcomes `err` of the getters, and only run-time panics are `panic` (an earlier model took thrown errors of getters for panics; the theorems that rested on it, `C58_negation_before` and half of `C58_negation_hdf5`, were false of the code and are gone); the positional specification of slices without the bound at the end, the offset as an int64 that wraps; boxes by the shape of what is read; HDF5 by showing of each function that it does not panic for a variable in one piece, whatever the range of bytes; negations |
| C59 | the writer of C38 (`closeFile`) | the specification of the format (C46, C51, C52) and of what a written file holds (Spec/H5Written) mention neither writer nor reader; the bytes of every message and header that the writer makes are shown to be of the form the format demands, and the global heap to be a collection, whose objects are unique in the file; dimension scales follow from the invariants of C38 |
| C60 | the writer's value functions on typed values (Model/H5TypedWriter): `supported`, `collectStrings`, `collectVLen…`, `datatypeOf`, `getDimsLimited`, `attrDims`, `writeVal`, the attribute message | induction over the type for elements (`Item`), over the dimensions for arrays (`ArrT`); the heap only grows, and what it holds at the end is found in the file (C59); the result is `Shown` of C55, whose reader theorems then apply |
| C61 | writer `Close` (C38, C60) and the reader for all types (C55, C56) | the invariants of C38 hold for files with values of any type (`FileStored`; C38 itself keeps `NoUser`, because its reader model knows numbers and strings only): every object of the file has a type of the writer (`WTy`), for which the casts of the reader succeed, and data that are `Shown`; C55 then gives values, attributes and slices; calls leave the state of the objects as it was |
| C62 | `openN` (Model/H5Object) on any bytes; lists and look-ups of Model/H5Api | an invariant of `walk` over all tasks (`Works`, induction on the fuel): the members found so far have different names and different addresses, and every object was read from a header at its address; the lists then by induction on the path of the group; negations for odd names by concrete files |
| C63 | `checkChecksum`, `readSuperblock`, object headers of version 2 and their continuation blocks | the invariant of C62 carries that the header was read and its checksum compared; from the reads that succeeded follow the length of the header and the bytes, compared with Spec/Lookup3; continuation blocks by induction on the chain of continuation messages, which are described as bytes of the file (Spec/H5Sane `Continues`); heaps and B-trees from the reads of `dumpObject`, which the invariant keeps for every object, the nodes of a tree by induction on its depth (`NodesIntact`) |
| C64 | `readSuperblock`, the writer's buffer | the reads that succeeded give the end of the file as the number in the superblock; the writer only appends (`closeFile_form`), for all contents |
| C65 | `readSuperblock` | no primitive of the parser panics there (`Safe`); two files on which the claim fails, one of them for every fuel by induction |
| C66 | `readHeader` and everything below it, `GetVariable`, `getSlice` with records | Spec/CdfFormat: the grammar of the classic format as an encoder of headers, and where the data of a variable is; parse-after-encode (`Reads`) for each production, induction on the lists; the interleaved records by induction on the number of records; `check` decides `File.Is` for the concrete files |
| C67 | the writer of C01 (`writeAll`) | `ofWriter` gives the file of the specification for the state of the writer; its header is the header written, and the invariant of C01 gives the limits and the data; negations by concrete sessions |
| C68 | `buildDatatypeMessage`, `GetVarGetter` with `cdlTypeString`, `goTypeString` | Spec/H5VarTypes: the type of a value (`HasTy`) without the writer; the writer stores it (`hasTy_stored`), the object in the file has it (`VarObj.code`), and the printers of C57 with no declared types write it out; negation: names of members that look like two members |
| C69 | both writers and both readers | Spec/Formats: the same calls (`sameCall`), values up to padding (`SaysTheSame`); what the CDF writer accepts the HDF5 writer accepts too (`same_run`), then C01, C02 and C38 |
| C70 | typed reader: every type class, the data of an object, GetVariable, GetSlice | Spec/H5Declared: `Declared exact dt dims v`, an inductive description of the values of a type; inversion of every parser of values (`allocT_inv`: a value that is returned is Declared), for every file that opens (C62 for distinct addresses) |
| C71 | the state of open objects (bounds, cached blocks, type) | invariant `Kept` of the state of a variable over any sequence of reads: type unchanged, blocks those of the file or those a whole read found (`dataBytes_again`) |
| C72 | CDF reader: getVarCommon, getSlice, convert | Spec/CdfDeclared: `DeclaredC ty dims v` (NumArray, or strings along the last dimension); the conversion of exactly as many elements as the lengths say is `nestV` (`convertCap_exact`), which has the shape |
| C73 | typed reader, whole variables and slices | Lemmas/H5Rows: what a parser of values gives depends on the bytes that it takes alone (`Free`, for every type class), elements take as many bytes as their type says (`Elem`, `Takes`), so rows are in the bytes for them (`allocT_part`); sequences of single values are left alone by `convert` (`seqsT_atoms`); the bytes of slices from C38/C44; histories from C71. Says nothing about what the bytes mean, so there are no hypotheses about heaps and values |
| C74 | Model/H5TypedBox: `getSliceMD`, `sliceRecursive` on values of any type | Spec/H5Box: elements by index (`elemAt`), no cutting; the rows from C73, the shape of the value from C70 (`Declared.row`: an array with a dimension is a slice of rows), then induction over the dimensions (`sliceRecT_box`) |
| C75 | `Len`, `Values` of a getter on values of any type | the same bytes for the whole and for the slice of all rows (`FlatVar`), hence all types; for chunks C73 with `Declared.rows_all`; scalars and histories from C71 |
| C47 | `getData` without chunks | positional spec of the byte stream, then induction on the shape |
| C48 | filter loop of `newRecordReader` | the filters as an inductive encoder; induction on the list of filters |

Where the code violates a property the model keeps the violation, the file with
the property theorems proves the negation from a concrete witness, and a theorem
with suffix `_partial` states the part that holds.

## Trusted base

* Lean's kernel and the axioms `propext`, `Classical.choice`, `Quot.sound`.
* The transcription of the Go source into the model (by hand; each definition
  cites its lines).
* Not modelled: the operating system (files are byte lists), `bufio` buffering,
  logging, `compress/zlib`, reflection on named Go types and Go arrays, the
  `go-thrower` package (its source is not in the repository: `Throw` is taken to
  produce the error which `RecoverError` stores, run-time panics are kept apart).
* Memory: the CDF reader takes the largest amount that can be allocated as the
  argument `ma`, and asking for more is a panic. The HDF5 reader is modelled
  with unlimited memory, so that "does not panic" there means: unless it runs out
  of memory.
