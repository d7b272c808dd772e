{"id": "C01", "title": "CDF variable round trip", "statement": "If a CDF file is written with OpenWriter(KindCDF), a sequence of successful AddVar calls and Close, then Open on that file succeeds, ListVariables returns the variable names in the order they were added, and GetVariable on each returns the value that was added (strings NUL-padded to the longest string in the variable) together with its dimension names.", "quantifier": "every finite sequence of AddVar calls with any supported scalar type, any rank, any lengths and any bit patterns", "why_tests_cant": "the set of programs (types x ranks x lengths x values x orderings) is infinite; offsets of later variables depend on sizes of all earlier ones", "anchors": ["netcdf/cdf/cdfwriter.go: AddVar, writeAll, writeVar, writeData, storeBytes..storeDoubles", "netcdf/cdf/cdf.go: readHeader, getVar, getVarCommon, convert"]}
{"id": "C02", "title": "CDF attribute round trip", "statement": "Every attribute (global or of a variable) accepted by the CDF writer is read back by Attributes() with the same key order, type and value, where a one-element slice comes back as the scalar it contains.", "quantifier": "every ordered attribute map with values of every supported type and length", "why_tests_cant": "values of unbounded length with padding depending on length mod 4 and on the type", "anchors": ["netcdf/cdf/cdfwriter.go: writeAttributes, computeAttributeSize, checkV5Attributes", "netcdf/cdf/cdf.go: getAttr, getAttrList"]}
{"id": "C03", "title": "CDF variable data areas are disjoint and cover the file", "statement": "In a file produced by the CDF writer the data of distinct variables occupy disjoint byte ranges that start after the header, each start offset recorded in the header is the place where that variable's data really is, and the ranges extend to the end of the file.", "quantifier": "every writer state reachable by AddVar/AddAttributes calls", "why_tests_cant": "depends on the sum of all earlier sizes and on a header-size computation made independently of the header writer", "anchors": ["netcdf/cdf/cdfwriter.go: computeVarSize, computeAttributeSize, writeAll, writeData, pad, roundInt64"]}
{"id": "C04", "title": "CDF version choice", "statement": "The version byte of a written CDF file is 5 exactly when some variable or attribute uses a type that only exists in version 5, and 2 otherwise; all counts and sizes in the file use the width that belongs to that version.", "quantifier": "every sequence of AddVar/AddAttributes calls", "why_tests_cant": "the order in which v5-only types appear relative to other items matters", "anchors": ["netcdf/cdf/cdfwriter.go: AddVar, AddAttributes, checkV5Attributes, writeNumber, writeAll"]}
{"id": "C05", "title": "CDF dimension consistency", "statement": "A dimension name denotes one length in the whole file: AddVar returns an error when a named dimension is reused with another length, otherwise dimension ids recorded for the variable resolve, in the file, to the lengths of its value.", "quantifier": "every sequence of AddVar calls with arbitrary dimension name lists", "why_tests_cant": "history dependent over an unbounded sequence of calls", "anchors": ["netcdf/cdf/cdfwriter.go: AddVar, getDimLengthsHelper, ErrDimensionSize"]}
{"id": "C06", "title": "Failed CDF writer calls have no effect", "statement": "An AddVar or AddAttributes call that returns an error leaves the file that Close will write unchanged.", "quantifier": "every writer state and every rejected argument", "why_tests_cant": "the leak is only visible in a later, unrelated part of the file", "anchors": ["netcdf/cdf/cdfwriter.go: AddVar, AddAttributes"]}
{"id": "C07", "title": "Name validation", "statement": "A name accepted for a variable, group or attribute is non-empty, contains no NUL, no control character and no slash, so that it survives being written to and read from a file; every name made of ASCII letters, digits and inner underscores is accepted.", "quantifier": "every byte string", "why_tests_cant": "the language of names is infinite and includes ill-formed UTF-8", "anchors": ["internal/validname.go: IsValidNetCDFName", "netcdf/cdf/cdfwriter.go: hasValidNames", "netcdf/hdf5/hdf5writer.go: AddVar"]}
{"id": "C08", "title": "Numeric codec", "statement": "Encoding a k-byte integer big-endian (CDF) or little-endian (HDF5) and decoding it returns the same bit pattern, also for negative values, and leaves the rest of the stream untouched.", "quantifier": "every width, every bit pattern, every following stream", "why_tests_cant": "2^64 values times all streams", "anchors": ["netcdf/cdf/cdfwriter.go: write8, write16, write32, write64", "netcdf/cdf/cdf.go: read8, read16, read32, read64", "netcdf/hdf5/hdf5.go: read16, read32, read64"]}
{"id": "C09", "title": "CDF GetSlice is a slice of Values", "statement": "For a CDF variable GetSlice(b,e) returns Values()[b:e] for every 0 <= b <= e <= Len().", "quantifier": "every fixed-size variable, value and pair of bounds", "why_tests_cant": "unbounded lengths, all pairs of bounds", "anchors": ["netcdf/cdf/cdf.go: getVarCommon (getSlice)", "internal/slicer.go: GetSlice, Values"]}
{"id": "C10", "title": "GetSliceMD is a sub-box", "statement": "GetSliceMD(begin,end) on a CDF variable of rank n returns the sub-array of Values() cut by begin[i]:end[i] in every dimension i.", "quantifier": "every rank, every shape and every in-range pair of bound vectors", "why_tests_cant": "rank and lengths unbounded", "anchors": ["netcdf/cdf/cdf.go: getVarCommon (getSliceMD)", "internal/slicer.go: SliceMD, sliceRecursive"]}
{"id": "C11", "title": "Out of range slices are refused", "statement": "GetSlice with begin<0, end<begin or end>Len() returns an error rather than data which is not in the variable.", "quantifier": "every variable and every bounds outside the valid range", "why_tests_cant": "infinitely many invalid bounds", "anchors": ["netcdf/cdf/cdf.go: getVarCommon", "internal/slicer.go: GetSlice"]}
{"id": "C12", "title": "CDF record variables", "statement": "For a file with an unlimited dimension the i-th record of each record variable is read from begin + i*recordSize, so Values() returns all records in order; for every begin and end GetSlice returns the same records.", "quantifier": "every number of records and of record variables", "why_tests_cant": "unbounded number of records and interleaved variables", "anchors": ["netcdf/cdf/cdf.go: readHeader, newRecordReader, getVarCommon"]}
{"id": "C13", "title": "Missing data reads as fill", "statement": "Reading a CDF variable whose data lie partly or wholly beyond the end of the file returns the stored elements followed by the fill value of its type.", "quantifier": "every truncation point of the data section", "why_tests_cant": "every crash point of a writer", "anchors": ["netcdf/cdf/cdf.go: makeFillValueReader, getVarCommon", "internal/fillvalue.go"]}
{"id": "C14", "title": "Fill stream is independent of read sizes", "statement": "The bytes delivered by the fill-value reader are the infinite repetition of the fill pattern, whatever sequence of buffer sizes is used to read them.", "quantifier": "every pattern, every sequence of read sizes", "why_tests_cant": "all chunkings of an infinite stream", "anchors": ["internal/fillvalue.go: NewFillValueReader, Read"]}
{"id": "C15", "title": "Opening a malformed CDF file yields an error value", "statement": "For every byte string, opening it as CDF either returns a group or an error; it never takes the process down.", "quantifier": "every byte string", "why_tests_cant": "the space of inputs is all byte strings", "anchors": ["netcdf/cdf/cdf.go: New, readHeader, getAttr, getVar, getDim"]}
{"id": "C16", "title": "Accepted CDF headers are sane", "statement": "If a byte string is accepted as CDF, every variable name is unique, every count is within the limits, every name fits in the header and the version is 1, 2 or 5.", "quantifier": "every byte string", "why_tests_cant": "all inputs", "anchors": ["netcdf/cdf/cdf.go: readHeader, checkVersion, getVar"]}
{"id": "C17", "title": "Truncated CDF header is refused", "statement": "Every proper prefix of the header of a file written by the CDF writer is refused by Open with an error.", "quantifier": "every written file and every crash point inside the header", "why_tests_cant": "all files times all prefixes", "anchors": ["netcdf/cdf/cdf.go: readHeader", "netcdf/cdf/cdfwriter.go: writeAll"]}
{"id": "C18", "title": "File kind dispatch", "statement": "Open chooses the CDF reader exactly for files that begin with 'C' and the HDF5 reader exactly for files that begin with 0x89, and returns ErrUnknown for everything else; a file written with either writer is dispatched to its own reader.", "quantifier": "every byte string", "why_tests_cant": "all inputs", "anchors": ["netcdf/netcdf4.go: Open, New, getKind, OpenWriter"]}
{"id": "C19", "title": "Shared file handle is closed exactly once (CDF)", "statement": "After any sequence of GetGroup and Close calls on a CDF file the underlying file is open while at least one group is open and is closed exactly when the last one is closed.", "quantifier": "every finite history of GetGroup/Close calls on any of the handles", "why_tests_cant": "all histories", "anchors": ["netcdf/cdf/cdf.go: GetGroup, Close"]}
{"id": "C20", "title": "Ordered attribute map refines an association list", "statement": "OrderedMap Get/Keys/Add/Hide behave as an insertion-ordered finite map: Get returns the last value added, Keys lists each visible key once in the order of first insertion.", "quantifier": "every sequence of Add and Hide calls", "why_tests_cant": "all histories", "anchors": ["netcdf/util/orderedmap.go: NewOrderedMap, Add, Get, Hide, Keys"]}
{"id": "C21", "title": "NewOrderedMap accepts exactly consistent input", "statement": "NewOrderedMap(keys, values) succeeds exactly when keys is a duplicate-free enumeration of the keys of values.", "quantifier": "every key list and value map", "why_tests_cant": "all pairs of key lists and maps", "anchors": ["netcdf/util/orderedmap.go: NewOrderedMap"]}
{"id": "C22", "title": "Reads do not change later reads", "statement": "The result of GetVariable/Values/GetSlice depends only on the file and the arguments, not on which calls were made before.", "quantifier": "every history of read calls on an open file", "why_tests_cant": "all histories", "anchors": ["netcdf/cdf/cdf.go: getVarCommon", "netcdf/hdf5/hdf5.go: GetVarGetter, GetVariable, getData"]}
{"id": "C23", "title": "CDF type names", "statement": "GoType() and Type() of a CDF variable name, in Go and in CDL notation, the base element type of what Values() and GetSlice() return, and the returned value has one level of slices per dimension (one less for character arrays, whose last dimension is the string).", "quantifier": "every type and rank", "why_tests_cant": "rank unbounded", "anchors": ["netcdf/cdf/cdf.go: goType, cdlType, getVarCommon"]}
{"id": "C24", "title": "Attribute type names", "statement": "GetType and GetGoType of an attribute describe exactly the type of the stored value for values of any nesting depth.", "quantifier": "every supported element type and nesting depth", "why_tests_cant": "depth unbounded", "anchors": ["netcdf/util/orderedmap.go: GetType, GetGoType, pType, pGoType, putDim"]}
{"id": "C25", "title": "Metadata checksum agreement", "statement": "The checksum the HDF5 writer stores over a metadata block is the one the reader computes while streaming the same block, for every block length, and any single stored checksum that differs is refused.", "quantifier": "every byte string of every length", "why_tests_cant": "all byte strings, lengths mod 4 and mod 12", "anchors": ["netcdf/hdf5/checksum.go: checksum, hashInts", "netcdf/hdf5/hdf5.go: computeChecksumStream, checkChecksum"]}
{"id": "C26", "title": "HDF5 superblock", "statement": "The superblock written by the HDF5 writer is accepted by the reader with the root address that was written; a file shorter than the recorded end-of-file address is refused as truncated; any file not starting with the signature is refused.", "quantifier": "every root address, every file length and every truncation point", "why_tests_cant": "all crash points", "anchors": ["netcdf/hdf5/hdf5.go: readSuperblock, checkMagic", "netcdf/hdf5/hdf5writer.go: writeSuperblockV2, Close"]}
{"id": "C27", "title": "Shuffle filter inverse", "statement": "The unshuffle filter undoes HDF5's byte shuffle for every element size and every buffer length.", "quantifier": "every element size and every byte string", "why_tests_cant": "all lengths, including those that are not a multiple of the element size", "anchors": ["netcdf/hdf5/readers.go: unshuffle, unshuffleReader.Read"]}
{"id": "C28", "title": "Fletcher32 filter", "statement": "The fletcher32 reader delivers exactly the data bytes when the stored sum is the HDF5 Fletcher-32 sum of the data and fails otherwise, however the caller sizes its reads.", "quantifier": "every data block and every sequence of read sizes", "why_tests_cant": "all byte strings and all chunkings", "anchors": ["netcdf/hdf5/readers.go: newFletcherReader, fletcher32Reader.Read"]}
{"id": "C29", "title": "Chunked data are assembled in row-major order", "statement": "Values() of a chunked HDF5 variable returns element (i1..in) at index (i1..in) for every shape and every chunk shape.", "quantifier": "every rank, shape and chunk shape, also when chunks do not divide the shape", "why_tests_cant": "all ranks, all shapes", "anchors": ["netcdf/hdf5/readers.go: layoutReader.fillrow, calculateFlatOffset", "netcdf/hdf5/hdf5.go: needsLayoutReader, newRecordReader"]}
{"id": "C30", "title": "Chunk index pruning keeps every needed chunk", "statement": "When a slice is read, skipping index entries outside the slice never drops a chunk which overlaps it.", "quantifier": "every B-tree (any depth and fan-out) with ordered keys and every slice", "why_tests_cant": "all trees, all slices", "anchors": ["netcdf/hdf5/hdf5.go: readBTreeNodeAny, calculateFlatOffsetFromKeys"]}
{"id": "C31", "title": "Missing chunks read as fill", "statement": "The byte stream of a variable is, position by position, the stored byte where a stored block covers it and the fill byte where none does, regardless of the order in which blocks are listed.", "quantifier": "every set of disjoint blocks in any order and every requested range", "why_tests_cant": "all block sets and orders", "anchors": ["netcdf/hdf5/hdf5.go: newRecordReader", "netcdf/hdf5/segment.go"]}
{"id": "C32", "title": "Global heap round trip", "statement": "Every object put in the writer's global heap is found by the reader under the index the writer recorded, with the same bytes.", "quantifier": "every sequence of heap objects", "why_tests_cant": "all sequences and object lengths mod 8", "anchors": ["netcdf/hdf5/hdf5writer.go: writeGlobalHeap, collectStrings, globalHeap", "netcdf/hdf5/hdf5.go: readGlobalHeap"]}
{"id": "C33", "title": "Dataspace message round trip", "statement": "The shape written in a dataspace message is the shape the reader returns, for scalars and for every rank.", "quantifier": "every rank up to 255 and every list of 64-bit lengths", "why_tests_cant": "all shapes", "anchors": ["netcdf/hdf5/writer_utils.go: buildDataspaceMessage", "netcdf/hdf5/hdf5.go: readDataspace"]}
{"id": "C34", "title": "Datatype message round trip", "statement": "The datatype message the writer emits for each supported Go type is parsed by the reader as the same class, size, signedness and byte order.", "quantifier": "every supported type, including nested compounds, enums, opaques and variable-length types of any size", "why_tests_cant": "types nest without bound", "anchors": ["netcdf/hdf5/writer_utils.go: buildDatatypeMessage, buildFixedPointDatatype, buildFloatingPointDatatype, buildCompoundDatatype, buildEnumDatatype", "netcdf/hdf5/types.go: printDatatype"]}
{"id": "C35", "title": "HDF5 attribute message round trip", "statement": "Every attribute written is read back with the same name, type and value.", "quantifier": "every name and value", "why_tests_cant": "values of any length", "anchors": ["netcdf/hdf5/writer_utils.go: buildAttributeMessage", "netcdf/hdf5/hdf5.go: readAttribute"]}
{"id": "C36", "title": "Link message round trip", "statement": "Every hard link written in a group is read back with the same name and target address.", "quantifier": "every name and address", "why_tests_cant": "all names, including long ones", "anchors": ["netcdf/hdf5/writer_utils.go", "netcdf/hdf5/hdf5writer.go: buildLinkMessage", "netcdf/hdf5/hdf5.go: readLinkDirectFrom"]}
{"id": "C37", "title": "Object header round trip", "statement": "The messages put in an object header are returned by the reader in order, whatever their number and sizes, and the padding added by the writer is ignored.", "quantifier": "every list of messages", "why_tests_cant": "all lists; padding depends on the total length mod 8", "anchors": ["netcdf/hdf5/hdf5writer.go: writeObjectHeaderV2", "netcdf/hdf5/hdf5.go: readDataObjectHeaderV2, readCommon"]}
{"id": "C38", "title": "HDF5 round trip", "statement": "A file written with the HDF5 writer opens, lists the groups and variables that were added, and every variable has the value that was added.", "quantifier": "every sequence of CreateGroup/AddVar/AddAttributes calls", "why_tests_cant": "all programs", "anchors": ["netcdf/hdf5/hdf5writer.go: Close, writeGroupContents, writeDataVar", "netcdf/hdf5/hdf5.go: New, GetVariable, ListVariables"]}
{"id": "C39", "title": "Path lookup", "statement": "GetGroup(path) returns the group reached by following the non-empty components of path from the root (leading slash) or from the current group, and ErrNotFound when there is none; repeated and trailing slashes do not matter.", "quantifier": "every group tree and every path", "why_tests_cant": "all trees and all strings", "anchors": ["netcdf/hdf5/hdf5.go: canonicalizePath, GetGroup"]}
{"id": "C40", "title": "Concurrent reads do not interfere", "statement": "Readers that share one HDF5 file handle, running concurrently in any interleaving, each see the bytes they would have seen alone, and the file is closed exactly when the last handle is closed.", "quantifier": "every number of readers and every schedule", "why_tests_cant": "all interleavings", "anchors": ["netcdf/hdf5/readers.go: raFile.Read, raFile.Seek, raFile.dup, refCountedFile"]}
{"id": "C41", "title": "HDF5 writer result does not depend on map order", "statement": "The values read back from a written HDF5 file are the same whatever the iteration order of the maps the writer uses internally.", "quantifier": "every permutation of map iteration", "why_tests_cant": "Go randomises map iteration; a test sees a few orders", "anchors": ["netcdf/hdf5/hdf5writer.go: collectStrings, collectVlenData, collectDimReferences"]}
{"id": "C42", "title": "Dimension names survive in HDF5", "statement": "For every variable in a written HDF5 file Dimensions() returns the names given to AddVar.", "quantifier": "every assignment of dimension names to variables", "why_tests_cant": "all sharing patterns", "anchors": ["netcdf/hdf5/hdf5writer.go: createDimensionScales, collectDimReferences, buildDimensionListAttribute", "netcdf/hdf5/hdf5.go: getDimensions"]}
{"id": "C43", "title": "Re-adding", "statement": "CreateGroup on an existing group returns that group; AddVar with a name that exists keeps a single variable with that name.", "quantifier": "every history of calls", "why_tests_cant": "all histories", "anchors": ["netcdf/hdf5/hdf5writer.go: CreateGroup, AddVar"]}
{"id": "C44", "title": "Slices of HDF5 variables", "statement": "GetSlice(b,e) on an HDF5 variable returns Values()[b:e] for 0<=b<=e<=Len().", "quantifier": "every variable, storage layout and pair of bounds", "why_tests_cant": "all shapes, layouts and bounds", "anchors": ["netcdf/hdf5/hdf5.go: GetVarGetter, getData, newRecordReader"]}
{"id": "C45", "title": "Close is idempotent for writers", "statement": "A second Close on a writer does nothing and reports success only if the first one wrote the file.", "quantifier": "every state, including a failed first Close", "why_tests_cant": "failure points", "anchors": ["netcdf/hdf5/hdf5writer.go: Close", "netcdf/cdf/cdfwriter.go: Close"]}
{"id": "C46", "title": "Object headers of other writers", "statement": "An object header of version 1 or 2, with any of its optional fields, gaps and continuation blocks and with messages in any of the encodings the format allows for shapes, types, fill values, links, layouts (compact, contiguous, chunked), filters, group, attribute and reference-count information and attributes, is read as exactly what its messages say, in the order in which they stand; an object reached by a second hard link is not read again.", "quantifier": "every header, every list of messages, every place in the file", "why_tests_cant": "the optional fields shift everything that follows; all combinations of encodings, orders and positions", "anchors": ["netcdf/hdf5/hdf5.go: readDataObjectHeaderV1, readDataObjectHeaderV2, readContinuation, readCommon, readLinkDirectFrom, readDataLayout, readFilterPipeline, readFillValue, readDataspace"]}
{"id": "C47", "title": "Variables in one piece", "statement": "Values() of an HDF5 variable that is stored contiguously or in its header, or that was never written, returns the stored elements (or the fill value) at their indices.", "quantifier": "every shape, element type and place in the file", "why_tests_cant": "all shapes, element types, byte orders, fill values", "anchors": ["netcdf/hdf5/hdf5.go: readDataLayout, getData, newRecordReader, makeFillValueReader, allocStreamReader", "netcdf/hdf5/vlen.go: alloc"]}
{"id": "C48", "title": "Filter pipelines are undone", "statement": "A chunk that was stored through any pipeline of compression, shuffling and Fletcher-32 sums, with any of the filters skipped for this chunk, is read as the bytes it was made of.", "quantifier": "every list of filters, every filter mask and every content", "why_tests_cant": "all pipelines, masks and sizes", "anchors": ["netcdf/hdf5/hdf5.go: newRecordReader", "netcdf/hdf5/readers.go: newUnshuffleReader, newFletcher32Reader"]}
{"id": "C49", "title": "Dimensions of a written HDF5 file", "statement": "ListDimensions() of the root group of a written HDF5 file lists exactly the names given as dimensions to AddVar, each once, and GetDimension(name) returns the length the variables have along it.", "quantifier": "every set of variables and assignment of dimension names", "why_tests_cant": "all sharing patterns between variables, groups and coordinate variables", "anchors": ["netcdf/hdf5/hdf5writer.go: createDimensionScales, writeDimScaleContents, Close", "netcdf/hdf5/hdf5.go: ListDimensions, GetDimension"]}
{"id": "C50", "title": "Sub-boxes of HDF5 variables", "statement": "GetSliceMD(begin,end) on an HDF5 variable of rank n returns the sub-array of Values() cut by begin[i]:end[i] in every dimension i.", "quantifier": "every variable, box and history of earlier reads", "why_tests_cant": "all shapes, boxes and histories", "anchors": ["netcdf/hdf5/hdf5.go: GetVarGetter, getSliceMD", "internal/slicer.go: SliceMD, sliceRecursive"]}
{"id": "C51", "title": "Types and attributes of other HDF5 programs", "statement": "The type of a variable or attribute in an HDF5 file of another program is understood as the HDF5 format defines it: opening a file with a datatype of any class, version, byte order, character set and nesting (compounds of arrays of enumerations, sequences of compounds, ...) succeeds and yields exactly the stored sizes, member names, offsets, dimensions and enumeration values; the same for the three versions of attributes.", "quantifier": "every datatype of the format, of any depth, every attribute", "why_tests_cant": "types nest without limit and each class has several versions and paddings", "anchors": ["netcdf/hdf5/hdf5.go: printDatatype, readAttribute", "netcdf/hdf5/compound.go: parse", "netcdf/hdf5/enum.go: parse", "netcdf/hdf5/array.go: parse", "netcdf/hdf5/vlen.go: parse", "netcdf/hdf5/opaque.go: parse", "netcdf/hdf5/fixedPoint.go: parse"]}
{"id": "C52", "title": "Files of other HDF5 programs", "statement": "An HDF5 file of another program that follows the file format opens, and shows exactly the groups, variables and attributes it holds: with a superblock of any version, headers of both versions with any number of continuation blocks, links in headers, in symbol tables and in dense storage, attributes in headers and in dense storage, nested to any depth. Every group is found by its path, and the values of a variable in one piece are the stored ones.", "quantifier": "every file of the format, every tree of groups", "why_tests_cant": "files nest without limit and mix storage variants freely; test files come from two programs", "anchors": ["netcdf/hdf5/hdf5.go: New, readSuperblock, readDataObjectHeader, readContinuation, readSymbolTable, GetGroup, GetVariable", "netcdf/hdf5/hdf5.go: readHeap, readBTreeNodeAny, readBTreeInternal, readBTreeLeaf, readRecords"]}
{"id": "C53", "title": "Groups with symbol tables list all members", "statement": "A group that keeps its members in a symbol table (a B-tree of version 1 with a local heap, the default of the HDF5 library) lists every member of the table under its name, with its contents, in the order of the table, whatever their number.", "quantifier": "every symbol table, every number of members", "why_tests_cant": "the tree grows levels only with hundreds of members; hard links are rare in test files", "anchors": ["netcdf/hdf5/hdf5.go: readSymbolTable, readSymbolTableLeaf, readLocalHeap"]}
{"id": "C54", "title": "Dense storage of links and attributes", "statement": "A group with many links and an object with many attributes keep them in a fractal heap that is indexed by a B-tree of version 2. All of them are shown, once each and in the order of the index, however deep the tree and however many blocks and tables of blocks the heap has.", "quantifier": "every heap, every tree, every number of links and attributes", "why_tests_cant": "depth of the tree and of the heap tables depend on thousands of entries of many sizes", "anchors": ["netcdf/hdf5/hdf5.go: readLinkData, readAttributeDirect, readBTreeNodeAny, readBTreeInternal, readHeap, readRootBlock"]}
{"id": "C55", "title": "Values of user-defined types", "statement": "The value returned for a variable, a range of its rows or an attribute of any stored type (compounds, arrays, enumerations, opaque blobs, sequences, strings, references, nested as one likes) is what the bytes in the file mean according to the format: the members of a compound at their offsets, the elements of an array in order, the elements of a sequence from the heap. Reading a range gives the rows of the whole value, and reading again gives the same.", "quantifier": "every type, every nesting, every array of dimensions, every stored byte string, every sequence of reads", "why_tests_cant": "types nest without bound; offsets, padding, byte orders and heap references multiply", "anchors": ["netcdf/hdf5/compound.go", "netcdf/hdf5/array.go", "netcdf/hdf5/enum.go", "netcdf/hdf5/opaque.go", "netcdf/hdf5/vlen.go", "netcdf/hdf5/hdf5.go: getData, getSlice, parseAttr, getAttributes, undoScalarAttribute"]}
{"id": "C56", "title": "Whole variables of netCDF-4 files of other programs", "statement": "GetVariable on a variable of a file of another program returns its values, of whatever type, the names of its dimensions (those of the dimension scales it lists, or its own name for a coordinate variable) and its attributes without those that belong to the format. Attributes of a group shows the attributes of the group.", "quantifier": "every file of the format, every group and variable, every type of values and attributes", "why_tests_cant": "dimension scales are found by address anywhere in the tree, and one unreadable attribute elsewhere in the file can spoil the call", "anchors": ["netcdf/hdf5/hdf5.go: GetVariable, findVariable, getDimensions, getAttributes, parseAttr, sortAttrList"]}
{"id": "C57", "title": "Descriptions of types in HDF5 files", "statement": "Type and GoType of a variable, GetType and GetGoType of a declared type and of an attribute describe the type that is stored, in CDL and in Go notation. A part of the type that a type of the same group declares is called by the name of that type, and by no other name. ListTypes names exactly the declared types of the group. The descriptions do not depend on the order in which Go visits maps, nor on what was read before.", "quantifier": "every file of the format, every group, every set of declared types, every type of a variable (nested to any depth), every order in which maps are visited", "why_tests_cant": "names are found by comparing printed texts of all declared types while maps are visited in random order; whether two different types can have the same text is a question about all types", "anchors": ["netcdf/hdf5/hdf5.go: findSignature, GetType, GetGoType, ListTypes, findType, findGlobalAttrType, findGlobalAttrGoType, cast", "netcdf/hdf5/types.go: cdlTypeString, goTypeString", "netcdf/hdf5/compound.go", "netcdf/hdf5/enum.go", "netcdf/hdf5/vlen.go", "netcdf/hdf5/array.go", "netcdf/hdf5/opaque.go"]}
{"id": "C58", "title": "Failures of a getter are returned errors", "statement": "GetSlice, GetSliceMD and Values of a VarGetter never panic: whatever the bounds, the call returns the values or an error.", "quantifier": "every file that opens, every variable, every pair of bounds (negative, reversed, behind the end), every number of bounds", "why_tests_cant": "the errors are thrown many levels below the call and recovered only where a function remembers to do so; which bounds reach a throw depends on offsets, types and dimensions", "anchors": ["netcdf/cdf/cdf.go: getSlice, readData, GetVarGetter", "internal/slicer.go: SliceMD, sliceRecursive", "netcdf/hdf5/hdf5.go: GetVarGetter, getSlice, getData"]}
{"id": "C59", "title": "Files that are written follow the HDF5 format", "statement": "The file that Close writes holds, according to the HDF5 file format and the conventions of netCDF-4 and without reference to the reader of this package, exactly the groups, variables, attributes and dimensions that were added: each group at its path and no other, each variable with its value, type, rank and attributes, and with references to dimension scales with the names and lengths of its dimensions and different numbers.", "quantifier": "every history of calls on the writer, every value of numbers, strings and sequences of any shape, every order in which maps are visited", "why_tests_cant": "a writer tested only with its own reader can share a misunderstanding of the format with it, and the layout depends on the whole history of calls; the format has checksums, padding, offsets and heaps whose correctness for all contents no sample settles", "anchors": ["netcdf/hdf5/hdf5writer.go: Close, AddVar, AddAttributes, CreateGroup, writeGroup, writeVar", "netcdf/hdf5/writer_utils.go"]}
{"id": "C60", "title": "Values of user-defined types are written so that the file means them", "statement": "When a compound, an opaque value, an enumeration, an array of these or an array of sequences is given to AddVar or as an attribute, the type, dimensions and data in the file mean that value by the HDF5 format (names of members, layout without gaps, strings and sequences in the global heap), and for attributes the reader of this package gives the value back.", "quantifier": "every such value of any depth and shape, every state of the heap before and after, every position of the heap in the file", "why_tests_cant": "user-defined types nest without bound, and strings and sequences in them share one heap with all other values of the file; tests use single compounds of a few numbers", "anchors": ["netcdf/hdf5/hdf5writer.go: collectStringsRecursive, collectVlenElements, collectVlenFromValue, serializeVlenToHeap, writeDataRecursive, isSupportedType", "netcdf/hdf5/writer_utils.go: buildDatatypeMessage, buildCompoundDatatype, buildEnumDatatype, buildAttributeMessage, writeAttributeDataRecursive, writeCompoundValue", "netcdf/hdf5/opaque.go: parse"]}
{"id": "C61", "title": "Values of user-defined types come back from the file", "statement": "Whatever was added to an HDF5 file with AddVar, AddAttributes and CreateGroup, compounds, opaque values, enumerations, sequences and arrays of them included: after Close, the file opens; every group has the variables and subgroups that were added; GetVariable returns the value, the dimensions and the attributes that were given, GetSlice the rows of that value, Attributes the attributes.", "quantifier": "every history of calls on the writer whose contents can be stored, every order of its maps and of the reader's maps of types, every path of a group, every sequence of reads before, every sequence of slices", "why_tests_cant": "user-defined types nest without bound and their strings and sequences share one heap with all other values of the file; tests write single variables of one type", "anchors": ["netcdf/hdf5/hdf5writer.go: Close, AddVar, AddAttributes, collectStrings, collectVLenObjects, collectAttrVLenObjects, writeValue", "netcdf/hdf5/hdf5.go: Open, New, GetVariable, GetVarGetter, Attributes, getData, parseAttr, cast", "netcdf/hdf5/compound.go: parse, alloc", "netcdf/hdf5/enum.go: parse, alloc", "netcdf/hdf5/vlen.go: parse, alloc"]}
{"id": "C62", "title": "The groups of every HDF5 file that opens are consistent", "statement": "Whatever bytes an HDF5 file consists of, if Open accepts it: no two members of a group have the same name, no object is reachable twice, and in every group that can be reached with GetGroup the lists are free of repetitions and agree with the look-ups: GetGroup finds exactly the names of ListSubgroups, GetVarGetter and GetVariable find no name that is not in ListVariables and every listed name has a variable, GetDimension knows exactly the names of ListDimensions.", "quantifier": "every file, every tree of groups it holds, every sequence of GetGroup calls with any paths, every name", "why_tests_cant": "the names, links and nesting come from the file, which any program may have written; lists and look-ups are separate walks over the tree with separate rules for hidden objects", "anchors": ["netcdf/hdf5/hdf5.go: Open, readDataObjectHeader, readLinkDirectFrom, dumpObject, ListVariables, ListSubgroups, ListDimensions, GetDimension, GetGroup, GetVarGetter, GetVariable, findVariable"]}
{"id": "C63", "title": "A file with a damaged HDF5 header is not opened", "statement": "If Open accepts a file, then the superblock has the right signature, a supported version and, from version 2 on, the right checksum, and every version 2 object header that any group or variable of the file was read from is followed by the lookup3 hash of its bytes. So is every block where such a header goes on, and every block where those go on. When the links or attributes of an object are kept in a heap, the headers of the heap and of its B-tree, all nodes of the tree and an indirect root block of the heap are followed by their hashes as well. A file with a damaged superblock of version 2 or 3 is refused with an error.", "quantifier": "every file of less than 4 GiB, every tree of objects in it, every damage", "why_tests_cant": "damage can be anywhere; the checksum has to be computed over exactly the bytes the format says, for headers with any flags, optional fields and sizes", "anchors": ["netcdf/hdf5/hdf5.go: readSuperblock, readDataObjectHeaderV2, readContinuation, readHeap, readRootBlock, readBTree, readBTreeLeaf, readBTreeInternal, checkChecksum, computeChecksumStream", "netcdf/hdf5/checksum.go"]}
{"id": "C64", "title": "A truncated HDF5 file is refused with an error", "statement": "A file that is shorter than its superblock says is not opened: Open returns an error, and does not crash. In particular no proper beginning of a file that Close wrote is opened, whatever was written.", "quantifier": "every file in every version of the superblock, every length it is cut to; every contents of the writer, every order of its maps", "why_tests_cant": "the cut can be anywhere, inside the superblock as well; a test tries a few lengths of a few files", "anchors": ["netcdf/hdf5/hdf5.go: Open, readSuperblock", "netcdf/hdf5/hdf5writer.go: Close, writeDimScaleContents, writeGroupContents, writeGlobalHeap"]}
{"id": "C65", "title": "No file makes Open crash", "statement": "Whatever bytes a file consists of, Open returns a group or an error: it does not panic, end the program or run out of stack.", "quantifier": "every byte string", "why_tests_cant": "it is a claim about all byte strings; fuzzing finds single crashes but cannot show that there are none", "anchors": ["netcdf/hdf5/hdf5.go: Open, readSuperblock, readContinuation, readCommon", "netcdf/hdf5/assert.go: checkZeroes, padBytesCheck"]}
{"id": "C66", "title": "Every file of the classic format is read as the format says", "statement": "Take any complete file of the classic NetCDF format (version 1, 2 or 5), whoever wrote it, with any dimensions, attributes, fixed-size and record variables, and any placement of the data. Open accepts it; dimensions, global attributes, the list of variables, and for each variable its dimensions, shape, attributes and value are those that the format specification assigns to the bytes, in the order of the file. Names that are not in the file are not found.", "quantifier": "every header with any number of dimensions, attributes and variables, every number of records, every layout of the data, every version", "why_tests_cant": "test files come from few programs, which lay out headers and data in one way; padding, record interleaving (one or several record variables), offsets, gaps and the widths of numbers vary per file and version", "anchors": ["netcdf/cdf/cdf.go: Open, New, readHeader, getNElems, getAttrList, getAttr, readName, readNumber, getVar, GetVariable, getVarCommon, GetVarGetter, ListDimensions, GetDimension"]}
{"id": "C67", "title": "Written CDF files follow the classic format", "statement": "After supported calls, all successful, Close writes a file that is a complete file of the classic NetCDF format by the specification, so that any program that follows the specification finds in it: the variables in the order they were added, with the given dimension names, attributes and values (strings padded with NULs), the global attributes of the last AddAttributes, no unlimited dimension; the data of variables starts at multiples of four and the size fields are right.", "quantifier": "every sequence of supported AddVar and AddAttributes calls with any names, values, shapes and attributes", "why_tests_cant": "round-trip tests read with the same library, which forgives errors made in the same way on both sides", "anchors": ["netcdf/cdf/cdfwriter.go: AddVar, AddAttributes, Close, writeAll, writeVar, writeAttributes, writeNumber", "netcdf/cdf/cdf.go"]}
{"id": "C68", "title": "Types of the variables of a written HDF5 file", "statement": "After any calls on the HDF5 writer whose contents can be stored, Close writes a file in which Type() and GoType() of every variable describe the type of the elements that were given to AddVar: the kind of number with its width and sign, string, opaque size, the members of a compound or an enumeration with their names, types and numbers, or the element type of a sequence; written out in CDL and in Go, whatever was read before.", "quantifier": "every history of writer calls, every kind of value and rank, arbitrarily nested user-defined types, every order of the maps of writer and reader, every sequence of reads before", "why_tests_cant": "tests name a few types; nesting, signs and names are unbounded, and a wrong class or bit in the datatype message can still round-trip through values", "anchors": ["netcdf/hdf5/writer_utils.go: buildDatatypeMessage, buildVlenSequenceDatatype, buildCompoundDatatype", "netcdf/hdf5/hdf5.go: GetVarGetter","netcdf/hdf5/types.go: cdlTypeString, goTypeString"]}
{"id": "C69", "title": "Both formats say the same", "statement": "A program that makes the same successful calls on a CDF writer and on an HDF5 writer gets two files that say the same through the API: the same variables, for each of them the same value (shorter strings of an array of strings come out of the CDF file with NUL bytes at the end), the same attributes in the same order, and the same dimension names (the CDF file also has names for dimensions that were given none), and the same global attributes.", "quantifier": "every sequence of AddVar and AddAttributes calls with values of the types that both formats support, every order of the maps of the HDF5 writer, every sequence of reads before", "why_tests_cant": "the tests of the two packages are separate; agreement of two writers and two readers for all values, shapes and orders of calls is a relation between four programs that no finite set of files settles", "anchors": ["netcdf/netcdf4.go: OpenWriter, Open", "netcdf/cdf/cdfwriter.go: AddVar, AddAttributes, Close", "netcdf/hdf5/hdf5writer.go: AddVar, AddAttributes, Close", "netcdf/cdf/cdf.go: GetVariable, Attributes", "netcdf/hdf5/hdf5.go: GetVariable, Attributes"]}
{"id": "C70", "title": "Values have the declared shape and type", "statement": "Whatever bytes an HDF5 file consists of, if it can be opened and GetVariable returns a value for a variable, then the value is an array with the shape and the element type that the file declares for the variable: as many nested Go slices as it has dimensions, each with as many elements as the dimension is long, rectangular, numbers of the declared kind, strings not longer than declared and without NUL, compounds with the declared members; and if GetSlice(b, e) returns a value, it is such an array with e - b rows. The attributes that GetVariable and Attributes return are the stored ones except those that netCDF-4 keeps for itself, none is lost, and their values have the stored types and dimensions (an array of one element is that element). (GetVariable after GetSlice of the same variable returns a part, C22; variables with an array type and dimensions of their own change when they are read, C55: for those, the first read only.)", "quantifier": "every file that can be opened, every group and variable in it, all bounds that fit into 64 bits, every sequence of successful GetVariable and GetSlice calls before (none of them GetSlice of the same variable for the first part), every order of the map of named types, every inflate function", "why_tests_cant": "a caller does a type assertion on what is returned; tests look at files that some other library has written correctly, the claim is about all files, damaged ones included", "anchors": ["netcdf/hdf5/hdf5.go: getData, GetVariable, GetSlice", "netcdf/hdf5/fixedPoint.go, floatingPoint.go, string.go, compound.go, vlen.go, array.go, enum.go, opaque.go: alloc"]}
{"id": "C71", "title": "Reading does not change what is read", "statement": "Whatever bytes an HDF5 file consists of: what GetVariable returns for a variable of a file that has just been opened, it also returns after any other reads, of this and of other variables of all groups: the same value, dimension names and attributes; and so does GetSlice of a variable with dimensions. (For a variable for which GetSlice was called, GetVariable differs, C22; for a chunked variable for which GetVariable was called, GetSlice may differ; variables with an array type and dimensions of their own change, C55.)", "quantifier": "every file that can be opened, every group and variable in it, all bounds, every sequence of successful GetVariable and GetSlice calls before with the exceptions above", "why_tests_cant": "the open file has mutable state shared by all groups (bounds, cached blocks and types of objects); tests read a variable once", "anchors": ["netcdf/hdf5/hdf5.go: getData, GetVariable, GetVarGetter, GetSlice", "netcdf/hdf5/hdf5.go: object (dataBlocks, slice bounds)"]}
{"id": "C72", "title": "Values of CDF files have the declared shape and type", "statement": "Whatever bytes a CDF file consists of, if it is opened and GetVariable returns a variable, then its values are a rectangular Go array of the declared type with the declared lengths (the record dimension is as long as the header says there are records), characters put together to strings along the last dimension; its dimension names and attributes are the declared ones; and what GetSlice(b, e) returns for rows that the variable has is such an array with e - b rows. (Left out: variables that are declared to have 2^63 elements or more, and character arrays of three or more dimensions without elements, which come as bytes, C23.)", "quantifier": "every file that can be opened, every variable in it, every 0 <= b, e <= Len", "why_tests_cant": "a caller does a type assertion on what is returned; the claim is about all files, truncated and damaged ones included, and all shapes", "anchors": ["netcdf/cdf/cdf.go: getVarCommon, getSlice, convert, GetVariable", "internal/slicer.go: GetSlice"]}
{"id": "C73", "title": "A slice is rows of the whole", "statement": "Whatever bytes an HDF5 file consists of: if GetVariable returns a value for a variable with dimensions of a file that has just been opened, then GetSlice(b, e) with 0 <= b <= e <= Len returns exactly the rows from b to e of that value; it does not fail where the whole could be read, and it does not depend on what was read before.", "quantifier": "every file that can be opened, every group and variable in it, whatever its bytes and those of its heaps are, all bounds, every sequence of successful GetVariable and GetSlice calls before", "why_tests_cant": "whole variables and slices go through different code for the extent of the data, the chunks and the fill values; tests compare a few slices of a few well-formed files", "anchors": ["netcdf/hdf5/hdf5.go: getData, newRecordReader, GetVariable, GetSlice", "netcdf/hdf5/fixedPoint.go, floatingPoint.go, string.go, compound.go, vlen.go, array.go, enum.go, opaque.go: alloc"]}
{"id": "C74", "title": "A box is a part of the whole", "statement": "Whatever bytes an HDF5 file consists of: if GetVariable returns a value for a variable with dimensions of a file that has just been opened, then GetSliceMD(begin, end) with bounds inside the dimensions returns an array of the type of the variable with the extents end[i]-begin[i], whose element at an index is the element of the whole at that index moved by begin. Bounds that are too few, too many or in the wrong order are refused with an error and change nothing.", "quantifier": "every file that can be opened, every group and variable in it, whatever its bytes and those of its heaps are, every number of dimensions, all bounds, every sequence of successful GetVariable and GetSlice calls before", "why_tests_cant": "the first dimension is cut when reading, the others by reflection on the Go value that was read, whose kind depends on the type in the file; tests compare a few boxes of a few numeric variables", "anchors": ["netcdf/hdf5/hdf5.go: GetVarGetter, getSliceMD, getData", "internal/slicer.go: SliceMD, sliceRecursive"]}
{"id": "C75", "title": "Values of a getter is the whole variable", "statement": "Whatever bytes an HDF5 file consists of: if GetVariable returns a value for a variable of a file that has just been opened, then Values() of a getter for it returns the same value with the same Go type, for scalars and arrays of every type, whatever was read before.", "quantifier": "every file that can be opened, every group and variable in it, every type and number of dimensions, every sequence of GetVariable and GetSlice calls before", "why_tests_cant": "Values goes through GetSlice with bounds that are stored in the object and through other code for the extent of the data; tests call it for a few numeric variables right after opening", "anchors": ["internal/slicer.go: Values, Len", "netcdf/hdf5/hdf5.go: GetVarGetter, getSlice, getData, GetVariable"]}
