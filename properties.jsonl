{"id": "C01", "title": "Unsigned LEB128 decoding is exact and bounded", "statement": "Reading an unsigned LEB128 number from a debug section yields exactly the value denoted by the bytes (modulo 2^64), advances the read position exactly past the terminating byte, never looks at a byte at or beyond the given end as long as at least one byte is available, and yields the all-ones value when the number does not terminate within ten bytes or before the end.", "quantifier": "all byte buffers, start positions and end positions", "why_tests_cant": "The space of byte sequences (including padded, overlong and truncated encodings of every length) is unbounded; tests only sample encodings.", "anchors": ["libdw/memory-access.h:__libdw_get_uleb128", "libdw/memory-access.h:get_uleb128_step", "libdw/memory-access.h:__libdw_max_len_uleb128"]}
{"id": "C02", "title": "Signed LEB128 decoding is exact and bounded", "statement": "Reading a signed LEB128 number yields the sign-extended value denoted by the bytes for every 64-bit signed value, advances exactly past its terminating byte and never looks at a byte at or beyond the end when at least one byte is available.", "quantifier": "all byte buffers, start and end positions, all int64 values", "why_tests_cant": "Every one of 2^64 values and every truncated tail has to be covered; the failing values are only those needing ten bytes.", "anchors": ["libdw/memory-access.h:__libdw_get_sleb128", "libdw/memory-access.h:get_sleb128_step", "libdw/memory-access.h:__libdw_max_len_sleb128"]}
{"id": "C03", "title": "Assembled ULEB128 numbers read back", "statement": "For every 32-bit number, the bytes that asm_adduleb128 appends to a section decode through libdw's ULEB128 reader to the same number and consume exactly those bytes, whatever follows them, and the number of bytes never exceeds the on-stack buffer.", "quantifier": "all uint32_t values and all following bytes", "why_tests_cant": "2^32 values times arbitrary continuation bytes.", "anchors": ["libasm/asm_adduleb128.c:asm_adduleb128", "libdw/memory-access.h:__libdw_get_uleb128"]}
{"id": "C04", "title": "Assembled SLEB128 numbers read back", "statement": "For every signed 32-bit number, the bytes that asm_addsleb128 appends decode through libdw's SLEB128 reader to the same number.", "quantifier": "all int32_t values and all following bytes", "why_tests_cant": "2^32 values; wrong only for values whose top payload bit disagrees with the sign.", "anchors": ["libasm/asm_addsleb128.c:asm_addsleb128", "libdw/memory-access.h:__libdw_get_sleb128"]}
{"id": "C05", "title": "Fixed-width section reads are endian-correct", "statement": "The 2/3/4/8-byte unaligned readers return the integer denoted by the bytes in the byte order of the file (whatever the byte order of the file), advance by exactly the width and the signed variants sign-extend.", "quantifier": "all byte contents, both byte orders, all widths", "why_tests_cant": "All 2^64 byte patterns for both byte orders.", "anchors": ["libdw/memory-access.h:read_2ubyte_unaligned", "libdw/memory-access.h:read_3ubyte_unaligned_inc", "libdw/memory-access.h:read_8ubyte_unaligned"]}
{"id": "C06", "title": "SysV symbol hash equals the gABI hash", "statement": "elf_hash returns, for every NUL-terminated string, exactly the value of the System V gABI hash function on its bytes, and it is always below 2^28.", "quantifier": "all NUL-terminated byte strings of any length", "why_tests_cant": "The unrolled first five characters and the shifted masking make equality non-obvious; strings are unbounded.", "anchors": ["libelf/elf_hash.c:elf_hash", "libelf/dl-hash.h:_dl_elf_hash"]}
{"id": "C07", "title": "GNU symbol hash equals its definition", "statement": "elf_gnu_hash returns, for every NUL-terminated string, 5381 folded with h*33+c over the unsigned bytes, modulo 2^32.", "quantifier": "all NUL-terminated byte strings", "why_tests_cant": "Strings unbounded; wrap-around behaviour of 64-bit unsigned long versus 32 bits must agree for every length.", "anchors": ["libelf/elf_gnu_hash.c:elf_gnu_hash"]}
{"id": "C08", "title": "CRC32 is the reflected CRC-32 and composes", "statement": "The debuglink CRC over a buffer equals the bitwise reflected CRC-32 (polynomial 0xEDB88320) of the bytes, and computing it in chunks, feeding the previous result back in, gives the same value as computing it in one go for every way of splitting the data.", "quantifier": "all byte sequences and all ways to split them", "why_tests_cant": "Unbounded data and exponentially many chunkings.", "anchors": ["lib/crc32.c:crc32", "lib/crc32_file.c:crc32_file"]}
{"id": "C09", "title": "Table size selection returns a prime at least as large as requested", "statement": "Whenever a hash table asks for a prime at least as large as a given seed (at least 4 and below the overflow range), the returned size is prime and not smaller than the seed, and no smaller odd prime was skipped; the search terminates.", "quantifier": "all seeds", "why_tests_cant": "Primality of the result has to hold for every seed, not for sampled ones.", "anchors": ["lib/next_prime.c:next_prime", "lib/next_prime.c:is_prime"]}
{"id": "C10", "title": "Growing hash table behaves like a map", "statement": "After any sequence of inserts with arbitrary hash values (colliding or not) interleaved with finds and resizes, a find returns the first value inserted under that hash (and equal by the comparison) and nothing else; duplicate inserts are reported as such and do not change the stored value.", "quantifier": "all operation histories, hash values and table sizes", "why_tests_cant": "Histories with collisions and resizes are unbounded; failures depend on probe sequences.", "anchors": ["lib/dynamicsizehash.c:lookup", "lib/dynamicsizehash.c:insert_entry_2", "lib/dynamicsizehash.c:NAME(insert)", "lib/dynamicsizehash.c:NAME(find)"]}
{"id": "C100", "title": "The modules of a process are those of its memory map", "statement": "For every memory map in the format of /proc/PID/maps, dwfl_linux_proc_maps_report succeeds and reports one module for each run of mappings of one file, from the start of the first to the end of the last and under the file's name, in order, and nothing for mappings that are not of files; with the address of the vDSO its mapping is a module of its own; a line that is not of that format makes it fail.", "quantifier": "all lists of mappings, however their numbers are padded and with any names, and all texts with a broken line after mappings of no file", "why_tests_cant": "Memory maps differ from process to process and are written by the kernel; tests see those of the test host, never hard-linked libraries or file systems with inode numbers beyond 2^63.", "anchors": ["libdwfl/linux-proc-maps.c: proc_maps_report, dwfl_linux_proc_maps_report, dwfl_linux_proc_report, report"]}
{"id": "C101", "title": "The vDSO and the page size of a live process are those of its auxiliary vector", "statement": "For every auxiliary vector of a 64-bit or 32-bit process, of any length, dwfl_linux_proc_report learns the address of the vDSO and the page size from it, whichever format it is in, and reports the mapping at that address as the module of the vDSO among the modules of the mapped files; without a vector it reports the memory map alone.", "quantifier": "all vectors of both formats, all contents of the executable, all alignments known before, all memory maps", "why_tests_cant": "The format of the vector is guessed by reading it both ways; a test runs on processes of one format whose identifiers and addresses do not look like tags, and reports each process once.", "anchors": ["libdwfl/linux-proc-maps.c: grovel_auxv, get_pid_class, dwfl_linux_proc_report"]}
{"id": "C102", "title": "Files reported offline get addresses that fit", "statement": "dwfl_report_offline gives every file addresses at which it could be loaded. In a relocatable file each section that is in memory gets an address that is a multiple of its alignment, sections do not overlap, and the module spans them; if the sections have addresses already they are all moved by the same bias, which keeps them aligned. Programs stay where they are linked; libraries are moved by one bias, and the module spans their segments. Files that are reported one after the other do not overlap.", "quantifier": "every file of either class with any number, sizes and alignments of sections or segments, every base address, and every sequence of files", "why_tests_cant": "Layouts are arbitrary, and the layout is changed in the middle when a section with a larger alignment comes; tests report single files and compare with stored output", "anchors": ["libdwfl/dwfl_report_elf.c:__libdwfl_elf_address_range", "libdwfl/offline.c:process_elf", "libdwfl/offline.c:dwfl_report_offline", "libdwfl/dwfl_begin.c:dwfl_begin"]}
{"id": "C103", "title": "dwarf_getfuncs visits each function of a unit once and can be resumed", "statement": "dwarf_getfuncs calls the callback for every function that is defined (not only declared) in the tree of DIEs of a compilation unit, in order, until the callback returns something other than DWARF_CB_OK; it then returns a value with which a later call goes on with the function after that one, and 0 when all functions were visited. A program that resumes until the result is 0 comes to an end and sees every function exactly once. For a DIE that is not a compilation unit the result is -1.", "quantifier": "every tree of DIEs with any depth, any tags and imported units; every language; every callback with any state that asks to stop any number of times", "why_tests_cant": "The depth and shape of trees, the points at which the callback stops and the number of resumptions are unlimited; tests run one callback that stops at every function of one file", "anchors": ["libdw/dwarf_getfuncs.c:dwarf_getfuncs", "libdw/dwarf_getfuncs.c:tree_visitor", "libdw/libdw_visit_scopes.c:__libdw_visit_scopes"]}
{"id": "C104", "title": "Entry breakpoints are at the end of the prologue", "statement": "dwarf_entry_breakpoints gives at least one breakpoint for a function: the rows in the ranges of the function that are marked as the end of the prologue, all of them; if there are no marks the second row of the function, as the compiler leaves it; and if there is no such row, or no line table, the entry of the function. Every breakpoint is in the function. The result does not depend on errors that earlier calls left.", "quantifier": "every sorted line table of any length, every function with one or any number of ranges, every state of the error indicator and of the unit", "why_tests_cant": "The result depends on the path of a binary search through line tables of any length and on what was called before; tests use the functions of one program", "anchors": ["libdw/dwarf_entry_breakpoints.c:dwarf_entry_breakpoints", "libdw/dwarf_getsrclines.c:dwarf_getsrclines"]}
{"id": "C105", "title": "Variables are found in the scope that declares them", "statement": "dwarf_getscopevar finds the first variable or formal parameter with the name in the innermost scope that has one, after skipping as many scopes with one as the caller asks for, and returns the index of that scope; -2 only if there is none. If the caller gives a file (by its path or its last part), a line or a column, it finds the variable that is declared there.", "quantifier": "every list of scopes with any number of children, every name, file, line and column and every number of scopes to skip", "why_tests_cant": "Shadowing is possible to any depth, with any number of variables in a scope and any file names; tests look up a few variables", "anchors": ["libdw/dwarf_getscopevar.c:dwarf_getscopevar", "libdw/dwarf_getscopevar.c:file_matches"]}
{"id": "C106", "title": "The location of a return value is where the ABI puts it", "statement": "dwfl_module_return_value_location gives, for a function on x86_64, a location description by which every byte of the returned value is where the System V ABI has it when the function returns: general registers, SSE registers, the x87 stack or memory; and no operations for functions that return nothing.", "quantifier": "every function DIE, with any chain of typedefs and qualifiers and attributes inherited from other DIEs, of every type the ABI distinguishes", "why_tests_cant": "Types, chains of modifiers and inherited attributes are unlimited; tests print the locations for one C file", "anchors": ["backends/x86_64_retval.c:x86_64_return_value_location", "backends/libebl_CPU.h:dwarf_peeled_die_type", "libdwfl/dwfl_module_return_value_location.c:dwfl_module_return_value_location"]}
{"id": "C107", "title": "nlist finds symbols by name", "statement": "nlist fills each entry of the list with the value, section and type of the symbol with that name: the last one in the symbol table, so that global symbols win over local ones, or in the dynamic symbol table if the file has no other; entries without a symbol, and all entries if the file has no readable symbol table, are set to zero, with the result -1 in the second case. It terminates for every number of symbols and changes nothing after the end of the list.", "quantifier": "every file with any sections, any number of symbols with any names, and every list of names", "why_tests_cant": "The result depends on collisions in a hash table of any size, with any set of names; tests look up three names", "anchors": ["libelf/nlist.c:nlist", "lib/fixedsizehash.h:fshash_lookup", "lib/fixedsizehash.h:fshash_init", "lib/fixedsizehash.h:fshash_overwrite", "lib/fixedsizehash.h:fshash_find", "lib/next_prime.c:next_prime"]}
{"id": "C108", "title": "The checksum depends on the permanent parts of a file only", "statement": "gelf_checksum is the CRC-32 of the contents of the permanent sections (those that strip never removes, without SHT_NOBITS), in order, as they are in the file or, for data the program added, changed or created, as they will be written. So it is the same before and after strip, in either byte order, before and after writing the file, and whatever was read before; and computing it changes nothing. If a section cannot be read the result is -1.", "quantifier": "every file with any number and kinds of sections and contents, of either byte order, opened or created, with any lists of data blocks, and every set of sections removed by strip", "why_tests_cant": "The contents and the number of data blocks are unlimited, and the result depends on what was read or added before; tests compare one file with its stripped version", "anchors": ["libelf/elf32_checksum.c:elf32_checksum", "libelf/gelf_checksum.c:gelf_checksum", "libelf/elf-knowledge.h:SECTION_STRIP_P", "libelf/elf_rawdata.c:elf_rawdata", "libelf/elf_getdata.c:elf_getdata"]}
{"id": "C109", "title": "Loaded objects are found in a core file", "statement": "For every core file memory in which the dynamic linker's list of loaded objects is intact, dwfl_core_file_report makes one record per object that has a dynamic section, in the order of the list, with its name (the executable named by the user for the first), its dynamic address, and the file of that name exactly if the build ID in memory does not contradict the file's; whatever the memory contains, following the list ends, reads only within buffers and loses no file descriptor.", "quantifier": "All memories, word sizes, byte orders, chains of any length (also circular or clobbered), buffer boundaries chosen by the memory callback, and files on disk.", "why_tests_cant": "The chain is data of a dead process: its length, the placement of elements and strings relative to the buffers the callback hands out and the files on disk are unbounded.", "anchors": ["libdwfl/link_map.c:report_r_debug", "libdwfl/link_map.c:integrated_memory_callback", "libdwfl/core-file.c:dwfl_core_file_report"]}
{"id": "C11", "title": "Growing hash table probing terminates", "statement": "A lookup or insert in the growing hash table always terminates, because the table always keeps at least one empty slot and the probe sequence visits every slot.", "quantifier": "all reachable table states and hash values", "why_tests_cant": "Non-termination needs a full table or a probe step not coprime to the size; only reachable-state reasoning excludes it.", "anchors": ["lib/dynamicsizehash.c:lookup", "lib/dynamicsizehash.c:insert_entry_2"]}
{"id": "C110", "title": "The dynamic linker's data is located through the auxiliary vector", "statement": "For every auxiliary vector in a core file's NT_AUXV note, of either word size and byte order, dwfl_core_file_report recognises the format, reads the program headers where AT_PHDR says, and finds the address stored in DT_DEBUG of the dynamic section, wherever the program was loaded; a damaged vector is never a reason to read outside a buffer or to divide by zero.", "quantifier": "All auxiliary vectors, program header tables, dynamic sections, load addresses and memory contents.", "why_tests_cant": "The format is guessed from the bytes of the vector, so whether it is guessed rightly depends on all values in it; load addresses are random.", "anchors": ["libdwfl/link_map.c:auxv_format_probe", "libdwfl/link_map.c:dwfl_link_map_report"]}
{"id": "C111", "title": "Errors are reported to the thread and by the library in which they happened", "statement": "After a failed call, elf_errno, dwarf_errno, dwfl_errno and asm_errno return the number of the latest failure of that library in the calling thread and then 0 until the next failure; elf_errmsg, dwarf_errmsg, dwfl_errmsg and asm_errmsg with -1 give the message of that failure, with 0 the same or NULL if there is none, and with a number the message of that number, where numbers outside the range give the message for unknown errors. A failure that libdwfl attributes to libelf, libdw or errno keeps its number and message. What other threads do has no influence.", "quantifier": "every interleaving of failures and requests of any number of threads, every error number, every int passed to errmsg", "why_tests_cant": "The histories and interleavings are unlimited; tests use one thread and ask once after each failure", "anchors": ["libelf/elf_error.c:elf_errno", "libelf/elf_error.c:elf_errmsg", "libelf/elf_error.c:__libelf_seterrno", "libdw/dwarf_error.c:dwarf_errno", "libdw/dwarf_error.c:dwarf_errmsg", "libdwfl/dwfl_error.c:dwfl_errno", "libdwfl/dwfl_error.c:dwfl_errmsg", "libdwfl/dwfl_error.c:__libdwfl_canon_error", "libasm/asm_error.c:asm_errno", "libasm/asm_error.c:asm_errmsg"]}
{"id": "C112", "title": "strip keeps a consistent set of sections", "statement": "strip decides which sections go by the documented rules. In the new file every section header refers (sh_link, and sh_info where it is the number of a section) to the same section as before, which is there; the sections keep their order; groups list the new numbers of their members. No loaded section is lost without -g, and none the user asks to keep. What is needed stays: sections that may not go, what they refer to, their relocations and their groups; nothing else stays. A file is left as it is only if there is nothing to remove. In the debug file each removed section has its contents, and the sections it refers to have theirs; a symbol table that stays but has symbols in removed sections is there, too. strip comes to an end for every file.", "quantifier": "every file: any number of sections with any types, flags, names and references (also circular ones and groups in groups), every combination of options", "why_tests_cant": "The number of sections and the graph of references are unlimited; the decision is a fixed point of several rules over the graph and tests use what one linker produces", "anchors": ["src/strip.c:handle_elf", "libebl/eblsectionstripp.c:ebl_section_strip_p", "libelf/elf-knowledge.h:SECTION_STRIP_P"]}
{"id": "C113", "title": "strip keeps symbols and everything that refers to them by number together", "statement": "When strip removes sections from a file whose symbol table stays, the new table has the symbols that are not in a removed section, in the same order and with the new numbers of their sections; a loaded table keeps real symbols of removed sections as undefined. sh_info still separates local and other symbols. Relocations and groups refer to the same symbols as before, versions belong to the same symbols, and the hash table leads from each bucket to exactly the symbols whose hash belongs there. A table that strip chose to keep is never refused because of its symbols, and damaged hash tables are not read or written outside their bounds.", "quantifier": "every symbol table of any size with any symbols, every choice of removed sections, every list of relocations and versions, every hash table (also damaged ones) and all names", "why_tests_cant": "Tables, the set of removed sections and the renumbering in place are unlimited; tests look at files of one compiler where few symbols go", "anchors": ["src/strip.c:handle_elf"]}
{"id": "C114", "title": "A file rebuilt from the memory of a process is the file that is mapped there", "statement": "elf_from_remote_memory, given the address of an ELF header in another process, a page size and a callback that reads the memory of that process, never touches memory outside its own buffers, whatever the process memory holds; it rejects what is no ELF header with program headers; and if an ELF file is mapped into the process, it succeeds, gives the load bias, and its image holds at every offset that a loadable segment covers the byte of the file, with a section header table named in the header only if the image holds it.", "quantifier": "all memories, all page sizes that are powers of two, all load biases, both classes and byte orders, all program header tables, all callbacks that follow their description", "why_tests_cant": "a test maps one or two well formed objects (usually the vDSO) with the page size of the host; headers in the memory of a foreign process can hold any values and segments can come in any order and size", "anchors": ["libdwfl/elf-from-memory.c:elf_from_remote_memory"]}
{"id": "C115", "title": "The file name of a module in a core file is that of its mappings", "statement": "When the modules of a core file are reported and the core file has an NT_FILE note, the file name that is taken from the note for a module belongs to a mapping that starts at the start of the module with the start of its file. For the note of a process it is found exactly if such a mapping exists and all mappings that start inside the module are of the same file; and for no note, however damaged, is anything read outside of it.", "quantifier": "all notes of any length and contents, both word sizes and byte orders, all module ranges; for the exact answer all lists of mappings that do not overlap and are in ascending order", "why_tests_cant": "a test has a core file of one process of the kernel it runs on; notes in foreign or damaged core files can state any number of mappings in any order with names missing", "anchors": ["libdwfl/dwfl_segment_report_module.c:handle_file_note", "libdwfl/dwfl_segment_report_module.c:buf_read_ulong"]}
{"id": "C116", "title": "Module found in a core file", "statement": "When an ELF header is found in a core file, dwfl_segment_report_module reports a module from the first page of its lowest loadable segment to the end of the last page of its highest one, moved by a bias that takes the segment holding the headers to where the header was found; nothing is reported without such a segment. When the file is read in at once, the image has, at each segment's file offset, the bytes that are in memory where the segment is, and the section headers if they are in memory.", "quantifier": "all lists of program headers, page sizes, memories and positions of the header", "why_tests_cant": "Depends on the interplay of arbitrary program headers with memory layout; core files with odd segment orders or offsets cannot be enumerated.", "anchors": ["libdwfl/dwfl_segment_report_module.c:dwfl_segment_report_module", "libdwfl/dwfl_segment_report_module.c:consider_phdr", "libdwfl/dwfl_segment_report_module.c:final_read"]}
{"id": "C117", "title": "Build ID of a module in a core file", "statement": "The build ID reported for a module found in a core file is the descriptor of the first GNU build ID note in its note segments, with the address where it is in memory, whether the notes are in the part read first or not; data without such a note gives none, and no data makes the search endless or read outside.", "quantifier": "all sequences of notes, alignments, memories and splits between the buffers, and arbitrary bytes in place of notes", "why_tests_cant": "The notes come from an untrusted core file: any sizes may be in the headers.", "anchors": ["libdwfl/dwfl_segment_report_module.c:consider_notes", "libdwfl/dwfl_segment_report_module.c:read_portion"]}
{"id": "C118", "title": "Build ID of the running kernel", "statement": "The build ID reported for the running kernel or for a kernel module is the descriptor of the GNU build ID note in its notes, wherever it is among them, and in whichever of the module's notes files.", "quantifier": "all contents of the notes files", "why_tests_cant": "The order and number of notes differ between kernels; a test sees one kernel.", "anchors": ["libdwfl/linux-kernel-modules.c:check_notes", "libdwfl/linux-kernel-modules.c:check_module_notes"]}
{"id": "C119", "title": "Compressed files and kernel images are opened as what they contain", "statement": "Opening a file for debugging information gives an ELF handle for the file itself if it is an ELF file (or an archive, where one is allowed), for the complete decompressed contents if it is a gzip, bzip2, xz or lzma file, and for the payload (decompressed if need be) if it is a kernel image with a boot header. Anything else, and any damaged file, is refused with an error in finite time; a failure never shows up as success with part of the contents. The caller's descriptor is closed only if the contents were replaced or if that was asked for on failure, and no buffer is lost.", "quantifier": "Every file, mapped or not, every behaviour of the decompression libraries that is correct for the file, every outcome of memory allocation, all combinations of the caller's flags.", "why_tests_cant": "Contents are read in pieces into a buffer that grows by doubling and retries smaller sizes when memory is short; tests have small complete files and enough memory.", "anchors": ["libdwfl/gzip.c: unzip, bigger_buffer", "libdwfl/open.c: decompress, what_kind, libdw_open_elf", "libdwfl/image-header.c: __libdw_image_header"]}
{"id": "C12", "title": "String table: every handle resolves to its string", "statement": "After any sequence of string additions and a finalize, the offset reported for each returned handle points into the produced data at a copy of exactly that string followed by NUL, and the produced size is exactly the announced total.", "quantifier": "all sequences of added strings (any bytes, any lengths, duplicates, suffixes)", "why_tests_cant": "Suffix sharing makes correctness depend on all pairs of strings in any insertion order.", "anchors": ["libdwelf/dwelf_strtab.c:strtab_add", "libdwelf/dwelf_strtab.c:newstring", "libdwelf/dwelf_strtab.c:dwelf_strtab_finalize", "libdwelf/dwelf_strtab.c:dwelf_strent_off"]}
{"id": "C120", "title": "Debugging sections are found by name, each kind once", "statement": "Opening the debugging information of an ELF file takes for each kind of section the data of the first section that has one of the names of the kind (with .z for the old kind of compression, with .dwo for split files), is not part of a section group, is not without data, and can be decompressed if it is compressed. If there is .debug_info, .debug_line or .debug_frame a handle results; otherwise the error is that there is no debugging information. Sections that libelf cannot read make the call fail. If a section group is given only its members are used. Sections of a skeleton and of its .dwo part are never mixed.", "quantifier": "Every list of sections with every header, name and data, every outcome of reading and decompression, every section group.", "why_tests_cant": "The names that match and those that nearly do, the orders of sections and the failures of single sections are far more than test files have.", "anchors": ["libdw/dwarf_begin_elf.c: dwarf_begin_elf, check_section, valid_p, global_read, scngrp_read"]}
{"id": "C121", "title": "Walking the line number tables visits each table once, with its unit", "statement": "Starting at offset 0 and passing back the offset and the unit of the call before, a caller of dwarf_next_lines gets each table of .debug_line once and in order and then the end, also when a table cannot be decoded. Each call goes forward and stays inside the section. For a table of version 4 or less the unit returned is one whose DW_AT_stmt_list is the table's offset (or, for a split file, a split unit), whenever there is one, whatever unit the caller passes in; the address size is that of the unit, or that of the file's class if there is none.", "quantifier": "Every section made of any number of well-formed tables of both formats and both byte orders, every list of units, every unit passed in.", "why_tests_cant": "Tables and units can be in any order, and any unit can be the hint; test files have them in the same order.", "anchors": ["libdw/dwarf_next_lines.c: dwarf_next_lines"]}
{"id": "C122", "title": "dwfl_getmodules visits each module once, over any number of calls", "statement": "A caller of dwfl_getmodules that passes 0 first and then the value returned by the call before, until that is 0, has its callback called exactly once for each module of the session, in the order of the module list, wherever the callbacks stop and even when a callback makes the address table of the session come into being. A single call visits consecutive modules and stops right after the first callback that says so; a value that can no longer be used gives -1 without visiting anything.", "quantifier": "all module lists, all address tables, all callbacks and all places where they stop, all sequences of calls, all offsets", "why_tests_cant": "The value returned has two styles depending on a table that other calls build and discard; which of the sequences of stops, lookups and reports loses a module depends on addresses, order and history.", "anchors": ["libdwfl/dwfl_getmodules.c:dwfl_getmodules", "libdwfl/segment.c:reify_segments"]}
{"id": "C123", "title": "The files, lines and declaration files of a unit do not depend on what was asked before", "statement": "dwarf_getsrclines gives the lines of the line table that the unit names, for a split unit those of its skeleton; dwarf_getsrcfiles gives the files of that table, for a split unit those of the table in its own file or else those of its skeleton; dwarf_decl_file gives the name that the unit in which the attribute stands has for the file number, or fails for number 0 or one that does not exist. The answers are the same after any sequence of calls, and no assertion fails.", "quantifier": "all sets of units, linked or not, all line tables, all sequences of dwarf_getsrclines, dwarf_getsrcfiles and dwarf_decl_file calls, all file numbers", "why_tests_cant": "Results are cached per unit and per line table; which answer a call gives depends on the order of all earlier calls for all units that share a table.", "anchors": ["libdw/dwarf_getsrcfiles.c:dwarf_getsrcfiles", "libdw/dwarf_getsrclines.c:dwarf_getsrclines", "libdw/dwarf_getsrclines.c:__libdw_getsrclines", "libdw/dwarf_decl_file.c:dwarf_decl_file"]}
{"id": "C124", "title": "Alternate files and split units are found where they should be", "statement": "dwarf_getalt returns the file a .gnu_debugaltlink section names: the file for its build ID below /usr/lib/debug/.build-id if that can be opened, else the file with its name, seen from the directory of the main file. Only a file with the build ID of the link is used. The split unit of a skeleton unit is looked for in the file of DW_AT_dwo_name, seen from the directory of the main file, then from DW_AT_comp_dir, and it is the first split unit there with the same id. The search is done once: later calls return the same without opening anything. Each file that is opened is closed, and each handle on one that is not used is released, exactly once. dwarf_setalt replaces the alternate file, releases one that was found, and dwarf_getalt returns the given one from then on, which stays usable.", "quantifier": "every link (or none) with any name and any build ID, every directory of the main file (or none), every name and compilation directory, every set of files that can be opened with any units in them, any sequence of calls", "why_tests_cant": "The paths are built by hand in buffers of fixed or computed size with rules for absolute, relative and empty parts, the build ID has any length, and which file is taken depends on all files of the system; tests use a handful of files in one directory.", "anchors": ["libdw/dwarf_getalt.c:__libdw_filepath", "libdw/dwarf_getalt.c:find_debug_altlink", "libdw/dwarf_getalt.c:dwarf_getalt", "libdw/dwarf_setalt.c:dwarf_setalt", "libdw/libdw_find_split_unit.c:try_split_file", "libdw/libdw_find_split_unit.c:__libdw_find_split_unit"]}
{"id": "C125", "title": "Program headers are a table under any sequence of calls", "statement": "elf32_newphdr / elf64_newphdr / gelf_newphdr give a handle a table of the given number of empty program headers (or remove it, for 0), elf_getphdrnum returns how many there are, gelf_getphdr returns the entry with a number and gelf_update_phdr replaces it, and only it, if the values fit the class; other numbers are refused. elf32_getphdr / elf64_getphdr show the table: for an existing file that of the file until it is replaced. Functions of the wrong class fail and failing calls change nothing. 65535 and more entries work if there is a section zero. Each change is marked so that elf_update writes it. None of this depends on whether the file is mapped or on which calls came before, and nothing undefined happens.", "quantifier": "every sequence of these calls with any arguments, on a new file or an existing one of either class and byte order, mapped or not, with any contents of the ELF header", "why_tests_cant": "The table, its number (in the ELF header or in section zero), the way it was allocated and the flags are kept apart and changed by different functions; which combination arises depends on the history. Tests create one table and write it.", "anchors": ["libelf/elf32_newehdr.c:elf32_newehdr", "libelf/elf32_newphdr.c:elf32_newphdr", "libelf/elf32_getphdr.c:elf32_getphdr", "libelf/elf_getphdrnum.c:elf_getphdrnum", "libelf/gelf_getphdr.c:gelf_getphdr", "libelf/gelf_update_phdr.c:gelf_update_phdr"]}
{"id": "C126", "title": "What is printed for a note of an object file is what the note says", "statement": "ebl_object_note prints, for machines without a function of their own, what is in the descriptor: for an SDT probe the three addresses, provider, name and arguments, or that it is invalid; for NT_GNU_BUILD_ID all bytes; for NT_GNU_GOLD_VERSION the text up to a zero byte; for NT_GNU_PROPERTY_TYPE_0 every property in order, with its value or its bytes or that its size is wrong; for NT_GNU_ABI_TAG the operating system and all numbers of the version. Nothing is printed for other owners and types, and no byte outside of the descriptor is ever read, however its sizes and strings are damaged.", "quantifier": "all owners, types and descriptors; both classes and byte orders, x86 or not; lists of properties and strings of any length", "why_tests_cant": "Descriptors come from files: sizes inside of them can be anything, and a read a few bytes behind the end shows no effect in a test.", "anchors": ["libebl/eblobjnote.c:ebl_object_note"]}
{"id": "C127", "title": "Threads of a live process are left as they were, and their memory is read as it is", "statement": "After dwfl_linux_proc_attach, dwfl_getthread_frames stops a thread while its frames are shown and leaves it as it was: when the call returns, successfully or not, the thread is no longer traced, it has got every signal that came in meanwhile, in order, and it is stopped again if it was stopped before; with assume_ptrace_stopped nothing is asked of the kernel. Words read while unwinding are those in the memory of the process at that time, whether or not process_vm_readv works, for 32-bit and 64-bit processes. dwfl_getthreads calls the callback for each thread in /proc/PID/task once, in order, until it returns something other than DWARF_CB_OK. This holds for any number of calls, also from inside callbacks.", "quantifier": "all sequences of calls; all answers of the kernel to ptrace, waitpid and process_vm_readv; all memories, changing between calls; all directories", "why_tests_cant": "Signals that arrive during the attach, failing waits and a thread that dies cannot be produced reliably in a test, and a stale cache shows only when the memory changes between two calls.", "anchors": ["libdwfl/linux-pid-attach.c:dwfl_linux_proc_attach", "libdwfl/linux-pid-attach.c:__libdwfl_ptrace_attach", "libdwfl/linux-pid-attach.c:pid_memory_read", "libdwfl/linux-pid-attach.c:pid_next_thread", "libdwfl/dwfl_frame.c:dwfl_thread_getframes", "libdwfl/dwfl_frame.c:dwfl_getthread_frames", "libdwfl/dwfl_frame.c:dwfl_getthreads"]}
{"id": "C128", "title": "Disassembled eBPF programs show every instruction, once and rightly", "statement": "disasm_cb on the bytes of an eBPF program hands the output function one text per instruction, in order, with the registers, numbers, offsets and jump targets of that instruction, for files of either byte order; it reads nothing outside of the bytes given, moves the start pointer past exactly what was shown, stops with the output function's answer when it refuses so that the call can be repeated, and names what is no instruction as invalid; disasm_str stores these texts in the buffer without writing behind its end and asks for more room only if it is needed.", "quantifier": "all sequences of bytes, all programs, byte orders, addresses, output functions and sizes of buffers", "why_tests_cant": "The test suite disassembles a few fixed programs; all combinations of operations, operands and addresses, all truncations and all callbacks cannot be enumerated.", "anchors": ["libcpu/bpf_disasm.c:bpf_disasm", "libasm/disasm_cb.c:disasm_cb", "libasm/disasm_str.c:disasm_str", "libasm/disasm_str.c:buffer_cb"]}
{"id": "C129", "title": "Location operations lead to the entries and values they name", "statement": "dwarf_getlocation_die gives the entry that the operand of a location operation refers to, in the unit or in .debug_info as the operation says, and an error for operands outside and operations without such an operand; dwarf_getlocation_attr and dwarf_getlocation_implicit_pointer give the block, the address of the table, or the location or value of that entry, and reading the attribute gives the number in the file without reading outside of the section.", "quantifier": "all operations, operands, units, address sizes, byte orders and tables of addresses", "why_tests_cant": "Tests look at a few compiled files of one address size and version; wrong offsets, indexes behind the table and type units do not occur in them.", "anchors": ["libdw/dwarf_getlocation_die.c:dwarf_getlocation_die", "libdw/dwarf_getlocation_attr.c:dwarf_getlocation_attr", "libdw/dwarf_getlocation_implicit_pointer.c:dwarf_getlocation_implicit_pointer", "libdw/dwarf_formaddr.c:dwarf_formaddr"]}
{"id": "C13", "title": "String table: equal strings share one handle and suffixes share storage", "statement": "Adding the same string twice yields the same offset, and adding a string that is a suffix of an already added string adds no bytes to the result.", "quantifier": "all sequences of additions", "why_tests_cant": "Depends on the tree shape produced by every insertion order.", "anchors": ["libdwelf/dwelf_strtab.c:strtab_add", "libdwelf/dwelf_strtab.c:searchstring"]}
{"id": "C130", "title": "Attaching a live process opens and closes in balance and names the thread group leader", "statement": "dwfl_linux_proc_attach attaches the process that the Tgid line of /proc/PID/status names, so that dwfl_pid answers its number; it returns the error of the first thing that fails, and -1 when dwfl_attach_state refuses. A failed attempt leaves nothing open and the handle's process as it was. A handle has at most one process. Over any history of attempts and module reports nothing is closed twice, and after dwfl_end nothing is open. The backend of an attached process stays usable until dwfl_end, and dwfl_pid reports the error of the latest failed attempt.", "quantifier": "all contents of the status file, all answers of the system, all module lists, all histories of dwfl_linux_proc_attach, dwfl_attach_state, dwfl_report_begin, dwfl_report_module, dwfl_report_end followed by dwfl_end", "why_tests_cant": "Each failure path has its own set of things to close, and histories of failed attempts, reports and ends are unbounded; a test attaches one process that exists.", "anchors": ["libdwfl/linux-pid-attach.c:dwfl_linux_proc_attach", "libdwfl/linux-pid-attach.c:pid_detach", "libdwfl/dwfl_frame.c:dwfl_attach_state", "libdwfl/dwfl_frame.c:dwfl_pid", "libdwfl/dwfl_frame.c:__libdwfl_process_free", "libdwfl/dwfl_end.c:dwfl_end", "libdwfl/dwfl_module.c:dwfl_report_end"]}
{"id": "C131", "title": "Register names are complete, distinct and fit the caller's buffer", "statement": "For each machine, ebl_register_info gives every DWARF register number of the ABI its name with the length including the terminator, answers 0 for gaps, and refuses numbers that are negative or too large and buffers that are too short; it never writes beyond the buffer. Names are distinct, consist of identifier characters, and registers that differ only in their number have the same width and encoding. dwfl_module_register_names reports the registers in order until the callback answers other than zero, and returns that answer.", "quantifier": "fourteen backends in both classes, all register numbers (any int), all buffer sizes, all callbacks", "why_tests_cant": "A test prints the names of one machine with one large buffer; the claims are about every number and every buffer size on every backend.", "anchors": ["libebl/eblreginfo.c:ebl_register_info", "backends/x86_64_regs.c:x86_64_register_info", "backends/i386_regs.c:i386_register_info", "backends/arm_regs.c", "backends/aarch64_regs.c", "backends/s390_regs.c", "backends/riscv_regs.c", "backends/bpf_regs.c", "backends/alpha_regs.c", "backends/ppc_regs.c", "backends/sparc_regs.c", "backends/sh_regs.c", "backends/m68k_regs.c", "backends/tilegx_regs.c", "backends/ia64_regs.c", "libdwfl/dwfl_module_register_names.c:dwfl_module_register_names"]}
{"id": "C132", "title": "The names of ELF constants are right, distinct and fit the buffer", "statement": "For every segment type, section type, dynamic tag, symbol type, symbol binding, OS ABI and section number, the name functions of libebl return, on every machine and for every buffer of at least one character, the name that the ELF headers give the constant, or the name of the OS- or processor-specific range with the distance in it, or <unknown> with the value, cut to the length of the buffer and ended by a NUL; nothing is written beyond the given length. In a buffer of 30 characters two different values never have the same text. Without a buffer NULL is returned exactly for the values that have no name.", "quantifier": "all values of int (int64_t for tags), all handles including none, all buffers and lengths, all arrays of section names", "why_tests_cant": "The values range over 2^32 or 2^64 and every buffer length; tests sample a few constants of each table", "anchors": ["libebl/eblsegmenttypename.c:ebl_segment_type_name", "libebl/eblsectiontypename.c:ebl_section_type_name", "libebl/ebldynamictagname.c:ebl_dynamic_tag_name", "libebl/eblsymboltypename.c:ebl_symbol_type_name", "libebl/eblsymbolbindingname.c:ebl_symbol_binding_name", "libebl/eblosabiname.c:ebl_osabi_name", "libebl/eblsectionname.c:ebl_section_name"]}
{"id": "C133", "title": "The section at a file offset", "statement": "Asked for the section at a file offset, libelf returns, over all sections of the handle however they are stored, the first section with contents that begins there, or else the last section that begins there, or NULL with an error code when none begins there; the error code is set only when NULL is returned. Headers not read so far are read first. The call for both classes refuses offsets a 32-bit file cannot have. Wrong kinds and classes of files and unreadable tables are errors.", "quantifier": "all lists of sections in all divisions into blocks, all offsets, both classes, files just opened or with headers read or sections added", "why_tests_cant": "The sections are an arbitrary list and can be divided in blocks in any way; ties between sections at one offset need all combinations of sizes and types", "anchors": ["libelf/elf32_offscn.c:elf32_offscn", "libelf/gelf_offscn.c:gelf_offscn", "libelf/elf32_getshdr.c:load_shdr_wrlock"]}
{"id": "C134", "title": "The data blocks of a section", "statement": "After any sequence of elf_getdata, elf_rawdata and elf_newdata calls on a section, walking it with elf_getdata gives each of its data blocks once: first the contents it has in the file, if it comes from a file, then the blocks added with elf_newdata in the order in which they were added. A section just created has no blocks until one is added. A section whose contents cannot be read fails every call and does not change. Pointers that are not blocks of the section are refused with an error. Raw data can be had for a section of a file at any time, never for a created one. The section with index 0 takes no data.", "quantifier": "all sections of opened files (with contents, empty, without contents in the file, unreadable) and created ones, and all finite histories of the three calls with any data argument", "why_tests_cant": "The property is about every interleaving of the three calls; the code keeps four partly redundant flags, and only some orders of calls bring out that they disagree.", "anchors": ["libelf/elf_newdata.c:elf_newdata", "libelf/elf_getdata.c:elf_getdata", "libelf/elf_getdata.c:__libelf_set_data_list_rdlock", "libelf/elf_getdata.c:__libelf_set_rawdata_wrlock", "libelf/elf_rawdata.c:elf_rawdata"]}
{"id": "C135", "title": "Flags, and what an update writes", "statement": "After any sequence of elf_flagelf, elf_flagehdr, elf_flagphdr, elf_flagscn, elf_flagshdr and elf_flagdata calls, a flag of the object is set exactly if the last call that set or cleared it set it; flags that users may not change, and those of other objects, stay as they were; a call that succeeds returns the flags as they are then, and one with a wrong command or handle fails and changes nothing. An update writes the parts that are marked modified, or belong to something that is, and no others, and takes the marks away, so that a second update right after it writes nothing.", "quantifier": "all files (any number of sections and blocks, any flag words), all finite histories of flag calls with any command and any flags, updates through a mapping and with write calls", "why_tests_cant": "The flags at an update are the outcome of an arbitrary history; tests see a few histories, and whether an update leaves a mark behind shows only in a second update.", "anchors": ["libelf/elf_flagelf.c:elf_flagelf", "libelf/elf_flagehdr.c:elf_flagehdr", "libelf/elf_flagphdr.c:elf_flagphdr", "libelf/elf_flagscn.c:elf_flagscn", "libelf/elf_flagshdr.c:elf_flagshdr", "libelf/elf_flagdata.c:elf_flagdata", "libelf/elf32_updatefile.c:__elf32_updatemmap", "libelf/elf32_updatefile.c:__elf32_updatefile"]}
{"id": "C136", "title": "Validating an address and an offset", "statement": "dwfl_validate_address returns 0 exactly if the address and the address plus the offset lie in one known module and in one contiguous region for relocation: the same section of an ET_REL module (its limit counts as inside), the address range of any other module. An address in no module, or in one that cannot be used, gives -1.", "quantifier": "all modules (types, address ranges, any section headers), all addresses and all signed offsets", "why_tests_cant": "The answer depends on a binary search over any number of sections and on boundary cases at each limit; only a proof covers all pairs of addresses.", "anchors": ["libdwfl/dwfl_validate_address.c:dwfl_validate_address", "libdwfl/derelocate.c:dwfl_module_relocate_address", "libdwfl/derelocate.c:find_section"]}
{"id": "C137", "title": "eu-size counts every loaded section once", "statement": "eu-size in the BSD format counts each section that is loaded at run time exactly once: read-only ones as text, writable ones without contents in the file as bss, the others as data; the last two numbers are the sum of the three, and the line of the totals has the sums over all files. In the SysV formats it lists exactly the loaded sections, in order, with their sizes and addresses, and their sum, and for segments exactly the loadable ones with their permissions and the sum of their sizes. A header that cannot be read ends the program with a message.", "quantifier": "all lists of section and program headers, any number of files, the three radixes", "why_tests_cant": "Sums over lists of any length and the wrap around of 64 bit numbers; tests look at a few files of ordinary size.", "anchors": ["src/size.c:show_bsd", "src/size.c:show_bsd_totals", "src/size.c:show_sysv", "src/size.c:show_sysv_one_line", "src/size.c:show_segments"]}
{"id": "C138", "title": "Machine flags are judged and shown by what elf.h defines", "statement": "The machine flags of a file (e_flags) are accepted exactly when they are built from the values and flags that elf.h defines for the machine; they are shown as names, or as a hexadecimal number of their value, within the caller's buffer.", "quantifier": "every 32-bit flag word, every backend, every buffer of at least 11 bytes", "why_tests_cant": "There are 2^32 flag words per machine; tests look at the few that compilers on the test hosts produce.", "anchors": ["libebl/eblmachineflagcheck.c:ebl_machine_flag_check", "libebl/eblmachineflagname.c:ebl_machine_flag_name", "backends/arm_symbol.c:arm_machine_flag_check", "backends/sh_symbol.c:sh_machine_flag_check", "backends/sparc_symbol.c:sparc_machine_flag_check"]}
{"id": "C14", "title": "Note iteration stays inside the data and makes progress", "statement": "gelf_getnote never reports a name or descriptor range outside the note data, always returns a strictly larger next offset on success, and therefore a caller looping on the returned offset always terminates.", "quantifier": "all note data contents, sizes and offsets, both alignments", "why_tests_cant": "Malformed name/descriptor sizes over the whole 32-bit range, including wrap-around.", "anchors": ["libelf/gelf_getnote.c:gelf_getnote", "libelf/libelfP.h:NOTE_ALIGN4", "libelf/libelfP.h:NOTE_ALIGN8"]}
{"id": "C15", "title": "Conversion to memory and back is the identity", "statement": "For every data type and encoding, converting file data to memory form and back to file form (and vice versa) reproduces the original bytes, with the reported sizes matching fsize.", "quantifier": "all data contents, all element counts, all record types, both encodings", "why_tests_cant": "All byte contents for every record type and count.", "anchors": ["libelf/elf32_xlatetom.c:elf32_xlatetom", "libelf/elf32_xlatetof.c:elf32_xlatetof", "libelf/gelf_xlate.c:__elf_xfctstom"]}
{"id": "C16", "title": "Conversion fields are byte-swapped individually", "statement": "Conversion between byte orders swaps every field of every record in isolation: each field of each output record denotes the same number in the other byte order, padding-free, independent of neighbouring records.", "quantifier": "all record contents and counts", "why_tests_cant": "All contents; a wrong field width only shows for particular byte patterns.", "anchors": ["libelf/gelf_xlate.c:START", "libelf/abstract.h", "libelf/gelf_xlate.h"]}
{"id": "C17", "title": "In-place and overlapping conversion equals out-of-place conversion", "statement": "The result of a data conversion does not depend on whether source and destination overlap.", "quantifier": "all buffers, all relative placements of source and destination", "why_tests_cant": "Overlap distance and direction multiply with sizes and contents.", "anchors": ["libelf/gelf_xlate.c:elf_cvt_Half", "libelf/gelf_xlate.c:elf_cvt_Ehdr"]}
{"id": "C18", "title": "Version section and GNU hash table conversion never leaves the buffer", "statement": "Converting symbol version definitions/needs or a 64-bit GNU hash table only reads and writes bytes of the given buffers, for every content (every chain of record offsets, every announced number of filter words), and terminates.", "quantifier": "all contents of version sections (any chain of vd_next/vd_aux/vda_next offsets) and of GNU hash tables", "why_tests_cant": "Adversarial offset chains are unbounded in number.", "anchors": ["libelf/version_xlate.h:elf_cvt_Verdef", "libelf/version_xlate.h:elf_cvt_Verneed", "libelf/gnuhash_xlate.h:elf_cvt_gnuhash"]}
{"id": "C19", "title": "Size queries agree with record layouts", "statement": "elf32_fsize/elf64_fsize/gelf_fsize return count times the on-disk size of the type for every valid type, and report an error exactly for unknown types or versions.", "quantifier": "all types, counts and versions", "why_tests_cant": "All combinations and the multiplication for every count.", "anchors": ["libelf/elf32_fsize.c", "libelf/gelf_fsize.c:gelf_fsize", "libelf/gelf_fsize.c:__libelf_type_sizes"]}
{"id": "C20", "title": "Section list behaves like a sequence", "statement": "After any number of elf_newscn calls, sections have the indices 0..n-1 in creation order, elf_getscn(i) returns the i-th section and fails exactly for i>=n, elf_nextscn enumerates 1..n-1 in order, and elf_getshdrnum returns n.", "quantifier": "all numbers of sections and initial table sizes", "why_tests_cant": "The block-list representation has boundary cases at each block size.", "anchors": ["libelf/elf_newscn.c:elf_newscn", "libelf/elf_getscn.c:elf_getscn", "libelf/elf_nextscn.c:elf_nextscn", "libelf/elf_getshdrnum.c:__elf_getshdrnum_rdlock"]}
{"id": "C21", "title": "Computed file layout is aligned and non-overlapping", "statement": "When the library computes the layout (no ELF_F_LAYOUT), the file header, program header table, every section's data and the section header table occupy pairwise disjoint file ranges inside the returned size, each section at an offset that is a multiple of its alignment, and data blocks inside a section are aligned, ordered and disjoint.", "quantifier": "all section counts, sizes, alignments, data-block lists", "why_tests_cant": "Depends on sums over arbitrary many sections with arbitrary alignments.", "anchors": ["libelf/elf32_updatenull.c:__elf32_updatenull_wrlock", "libelf/elf_update.c:elf_update"]}
{"id": "C22", "title": "elf_update writes every section's data at its announced offset", "statement": "After a successful writing update of a freshly laid out file, the bytes of the output file at each section's offset are the section's (converted) data, gaps hold the fill byte, and the header tables are at their announced offsets.", "quantifier": "all layouts with disjoint ranges and all data contents", "why_tests_cant": "Every ordering of sections by offset, every gap size (fill buffer boundary), every content.", "anchors": ["libelf/elf32_updatefile.c:__elf32_updatefile", "libelf/elf32_updatefile.c:fill", "libelf/elf32_updatefile.c:sort_sections"]}
{"id": "C23", "title": "elf_strptr only returns terminated strings inside the section", "statement": "A non-NULL result of elf_strptr points at the requested offset inside the string section's data and there is a NUL byte at or after it within that data; otherwise the call fails.", "quantifier": "all section contents, sizes, data-block lists and offsets", "why_tests_cant": "All offsets and contents, including unterminated tails.", "anchors": ["libelf/elf_strptr.c:elf_strptr", "libelf/elf_strptr.c:validate_str"]}
{"id": "C24", "title": "Archive iteration visits members in order and terminates", "statement": "Iterating an archive with elf_begin/elf_next visits member headers at strictly increasing offsets (each at the previous header plus 60 plus the even-rounded member size) and terminates for every archive content; a member never extends beyond the archive.", "quantifier": "all archive byte contents", "why_tests_cant": "Adversarial ar_size fields and truncated tails are unbounded.", "anchors": ["libelf/elf_begin.c:__libelf_next_arhdr_wrlock", "libelf/elf_next.c:elf_next", "libelf/elf_begin.c:read_long_names"]}
{"id": "C25", "title": "Archive symbol index stays inside the index member", "statement": "elf_getarsym only reads bytes of the archive's symbol index member and every returned symbol name is NUL-terminated inside it.", "quantifier": "all archive contents", "why_tests_cant": "All malformed symbol counts and unterminated string areas.", "anchors": ["libelf/elf_getarsym.c:elf_getarsym"]}
{"id": "C26", "title": "Raw chunk access is bounded by the file", "statement": "elf_getdata_rawchunk succeeds only for ranges lying fully inside the ELF file image and returns exactly these bytes.", "quantifier": "all offsets, sizes and file sizes (full 64-bit ranges)", "why_tests_cant": "Overflow cases of offset+size over 2^64.", "anchors": ["libelf/elf_getdata_rawchunk.c:elf_getdata_rawchunk"]}
{"id": "C27", "title": "Section and program header counts never exceed what the file holds", "statement": "The number of sections and program headers accepted when opening a file never leads to table entries outside the file image, including the extended numbering through section zero.", "quantifier": "all ELF headers (every e_shoff, e_shnum, e_phoff, e_phnum, sh_size, sh_info value)", "why_tests_cant": "All 64-bit offsets/counts including wrap-around products.", "anchors": ["libelf/elf_begin.c:get_shnum", "libelf/elf_begin.c:file_read_elf", "libelf/elf_getphdrnum.c:__elf_getphdrnum_chk_rdlock"]}
{"id": "C28", "title": "Call frame program execution computes the row for the requested address", "statement": "dwarf_cfi_addrframe yields the register and CFA rules of the row of the unwind table that covers the requested address, as defined by running the CIE and FDE instructions per DWARF 6.4, together with the exact address interval of that row.", "quantifier": "all CIE/FDE instruction streams and all addresses inside the FDE", "why_tests_cant": "Instruction streams with advances, remember/restore nesting and arbitrary operands are unbounded.", "anchors": ["libdw/cfi.c:execute_cfi", "libdw/cfi.c:__libdw_frame_at_address", "libdw/dwarf_frame_info.c:dwarf_frame_info"]}
{"id": "C29", "title": "Call frame program execution never reads outside its instructions", "statement": "Executing a call frame program never reads a byte at or beyond the end of the instruction stream.", "quantifier": "all instruction streams, including truncated ones", "why_tests_cant": "Every truncation point of every instruction.", "anchors": ["libdw/cfi.c:execute_cfi", "libdw/memory-access.h:__libdw_get_uleb128"]}
{"id": "C30", "title": "Encoded pointers decode to base plus value and stay in bounds", "statement": "Reading a DW_EH_PE-encoded pointer yields application base plus the decoded value (dereferenced for indirect encodings), fails on unknown encodings, and never reads outside the section.", "quantifier": "all encodings (256), all section contents and positions", "why_tests_cant": "Encoding byte times positions near the end of section times contents.", "anchors": ["libdw/encoded-value.h:read_encoded_value", "libdw/encoded-value.h:encoded_value_size"]}
{"id": "C31", "title": "CFI entry iteration makes progress and stays in bounds", "statement": "Iterating call frame entries with dwarf_next_cfi from offset 0 terminates for every section content; every reported instruction range lies inside its entry, which lies inside the section.", "quantifier": "all section contents, both section flavours", "why_tests_cant": "All malformed lengths and headers.", "anchors": ["libdw/dwarf_next_cfi.c:dwarf_next_cfi"]}
{"id": "C32", "title": "Address range lookup is correct", "statement": "For sorted, non-overlapping address ranges, dwarf_getarange_addr returns the range containing the address, and fails exactly when no range contains it.", "quantifier": "all range tables and addresses", "why_tests_cant": "Binary search over all table sizes and all boundary addresses.", "anchors": ["libdw/dwarf_getarange_addr.c:dwarf_getarange_addr", "libdw/dwarf_getaranges.c:dwarf_getaranges"]}
{"id": "C33", "title": "Line lookup returns the last row at or below the address", "statement": "dwarf_getsrc_die returns the last line-table row whose address is less than or equal to the given address unless that row ends a sequence, and fails otherwise.", "quantifier": "all sorted line tables and addresses", "why_tests_cant": "All sizes and duplicate addresses.", "anchors": ["libdw/dwarf_getsrc_die.c:dwarf_getsrc_die"]}
{"id": "C34", "title": "Line number programs produce the DWARF line table", "statement": "dwarf_getsrclines yields exactly the rows of the DWARF line number state machine, sorted by address with end-of-sequence markers first and original order among equals, for every program.", "quantifier": "all line number programs and header parameters", "why_tests_cant": "Programs are unbounded; wrap-around of the op_index/address arithmetic.", "anchors": ["libdw/dwarf_getsrclines.c:read_srclines", "libdw/dwarf_getsrclines.c:run_advance_pc", "libdw/dwarf_getsrclines.c:compare_lines"]}
{"id": "C35", "title": "Attribute value skipping stays inside the unit", "statement": "The computed encoded size of any attribute value never makes the reader leave the compilation unit, and equals the size defined by the form's encoding.", "quantifier": "all forms, all unit contents, all positions", "why_tests_cant": "Length overflow for the full 64-bit range of block lengths.", "anchors": ["libdw/libdw_form.c:__libdw_form_val_compute_len", "libdw/libdwP.h:__libdw_form_val_len"]}
{"id": "C36", "title": "libdw allocations are aligned, disjoint and inside their blocks", "statement": "Objects handed out by the per-Dwarf allocator are aligned as requested, lie completely inside memory obtained from the system and never overlap each other, for any allocation history.", "quantifier": "all allocation histories (sizes, alignments)", "why_tests_cant": "Unbounded histories with mixed sizes crossing block boundaries.", "anchors": ["libdw/libdw_alloc.c:__libdw_allocate", "libdw/libdwP.h:libdw_alloc"]}
{"id": "C37", "title": "FDE lookup finds the frame entry covering an address", "statement": "When the search table in .eh_frame_hdr is sorted, looking up an address selects the entry with the greatest start not above the address; the cached tree of frame entries never returns an entry that does not cover the address.", "quantifier": "all search tables and addresses, all lookup histories", "why_tests_cant": "All table sizes, boundary addresses and histories.", "anchors": ["libdw/fde.c:binary_search_fde", "libdw/fde.c:__libdw_find_fde", "libdw/fde.c:compare_fde"]}
{"id": "C38", "title": "Segment lookup maps every address to the segment reported for it", "statement": "After any sequence of reported non-overlapping segments, dwfl_addrsegment returns, for each address, the number of the segment containing it and -1 for addresses in none.", "quantifier": "all report histories and all addresses", "why_tests_cant": "Arbitrary report orders, adjacency and gaps.", "anchors": ["libdwfl/segment.c:insert", "libdwfl/segment.c:lookup", "libdwfl/segment.c:dwfl_report_segment", "libdwfl/segment.c:dwfl_addrsegment"]}
{"id": "C39", "title": "DWARF expression evaluation follows the stack machine and terminates", "statement": "Evaluating a location expression while unwinding terminates within a fixed number of steps, never uses more than 256 stack entries, never under-runs the stack and computes each operator as DWARF defines it.", "quantifier": "all operation lists, register files and memories", "why_tests_cant": "Programs with branches are unbounded; arithmetic corner values over 2^64.", "anchors": ["libdwfl/frame_unwind.c:expr_eval", "libdwfl/frame_unwind.c:do_push", "libdwfl/frame_unwind.c:do_pop"]}
{"id": "C40", "title": "Address relocation picks the containing section", "statement": "dwfl_module_relocate_address on relocatable modules returns the index of a section whose range contains the address (its limit included unless the next section starts there) and the offset within it.", "quantifier": "all section layouts and addresses", "why_tests_cant": "Binary search with inclusive ends over all layouts.", "anchors": ["libdwfl/derelocate.c:find_section", "libdwfl/derelocate.c:compare_secrefs"]}
{"id": "C41", "title": "Closest symbol never lies above the address and sized symbols cover it", "statement": "dwfl_module_addrsym never returns a symbol with value above the address; if the returned symbol has a size, the address lies inside it; a sized covering global symbol is preferred over none.", "quantifier": "all symbol tables and addresses", "why_tests_cant": "All combinations of overlapping, sizeless, weak and local symbols.", "anchors": ["libdwfl/dwfl_module_addrsym.c:try_sym_value", "libdwfl/dwfl_module_addrsym.c:search_table", "libdwfl/dwfl_module_addrsym.c:__libdwfl_addrsym"]}
{"id": "C42", "title": "Module reporting keeps exactly the re-reported modules", "statement": "After dwfl_report_begin, any sequence of dwfl_report_module and dwfl_report_end, the module list consists exactly of the modules reported in this round, in report order, with already known modules reused and all others removed.", "quantifier": "all module histories", "why_tests_cant": "Unbounded report rounds with arbitrary overlaps of old and new modules.", "anchors": ["libdwfl/dwfl_module.c:dwfl_report_begin", "libdwfl/dwfl_module.c:dwfl_report_module", "libdwfl/dwfl_module.c:dwfl_report_end"]}
{"id": "C43", "title": "Compressing an already compressed section is refused", "statement": "elf_compress reports an error when asked to compress a section that already carries SHF_COMPRESSED, and to decompress one that does not; otherwise flags and header fields are updated consistently.", "quantifier": "all section header states and requests", "why_tests_cant": "All flag combinations (64-bit).", "anchors": ["libelf/elf_compress.c:elf_compress"]}
{"id": "C44", "title": "Assembled integers land in the section", "statement": "asm_addintN/asm_adduintN append exactly the N/8 bytes of the number in the byte order of the output to sections with contents.", "quantifier": "all numbers, section types, byte orders and previous contents", "why_tests_cant": "All values and section states.", "anchors": ["libasm/asm_addint8.c", "libasm/asm_align.c:__libasm_ensure_section_space"]}
{"id": "C45", "title": "Section alignment padding is exact", "statement": "asm_align pads the section with the fill pattern, phase-aligned to the offset, up to the next multiple of the requested power of two and no further, keeping previously assembled bytes.", "quantifier": "all offsets, alignments, patterns and block states", "why_tests_cant": "Unbounded offsets and patterns, block boundaries.", "anchors": ["libasm/asm_align.c:asm_align", "libasm/asm_align.c:__libasm_ensure_section_space"]}
{"id": "C46", "title": "Unit iteration visits every unit, makes progress and stays inside the section", "statement": "Iterating unit headers with dwarf_next_unit from offset 0 visits exactly the units of a well-formed section and returns the fields of their headers; it terminates for every section content and never reads beyond the section.", "quantifier": "all .debug_info and .debug_types contents, both byte orders, both formats, versions 2 to 5", "why_tests_cant": "All unit sequences, and all malformed lengths/truncations.", "anchors": ["libdw/dwarf_nextcu.c:__libdw_next_unit", "libdw/libdwP.h:__libdw_first_die_from_cu_start"]}
{"id": "C47", "title": "Range lists decode to the ranges of the DIE", "statement": "Iterating a range list yields exactly the pairs denoted by the list relative to the current base address, stops at the terminator, makes progress and never reads outside the section.", "quantifier": "all .debug_ranges/.debug_rnglists contents, both address sizes", "why_tests_cant": "Unbounded lists and malformed tails.", "anchors": ["libdw/dwarf_ranges.c:__libdw_read_begin_end_pair_inc", "libdw/dwarf_ranges.c:dwarf_ranges"]}
{"id": "C48", "title": "Abbreviation decoding stays inside .debug_abbrev and reports its length", "statement": "Decoding an abbreviation reads only bytes of the section, terminates, and reports exactly the encoded length of the declaration.", "quantifier": "all section contents and offsets", "why_tests_cant": "Unbounded attribute lists and malformed tails.", "anchors": ["libdw/dwarf_getabbrev.c:__libdw_getabbrev"]}
{"id": "C49", "title": "Sibling iteration enumerates exactly the DIEs of one level", "statement": "dwarf_child/dwarf_siblingof enumerate exactly the direct children of a DIE in order, skipping the complete subtrees in between, for every well-formed DIE tree, and always terminate.", "quantifier": "all DIE trees", "why_tests_cant": "Trees of unbounded depth and width with or without sibling attributes.", "anchors": ["libdw/dwarf_siblingof.c:dwarf_siblingof", "libdw/dwarf_child.c:dwarf_child", "libdw/dwarf_child.c:__libdw_find_attr"]}
{"id": "C50", "title": "Typed record access is bounds-checked and round-trips", "statement": "gelf_get*/gelf_update* access entry ndx only if it lies completely inside the data, updating then getting an entry returns what was stored (when representable in the file class) and leaves all other entries unchanged; unrepresentable values are rejected.", "quantifier": "all indices, data sizes and record values in both classes", "why_tests_cant": "All index values including negative/overflowing ones, all 64-bit field values.", "anchors": ["libelf/gelf_getsym.c:gelf_getsym", "libelf/gelf_update_sym.c:gelf_update_sym", "libelf/libelfP.h:INVALID_NDX"]}
{"id": "C51", "title": "Note section conversion stays inside the buffers", "statement": "Converting a note section between byte orders reads and writes only bytes of the given buffers and terminates, for every content.", "quantifier": "all note section contents, both alignments, both directions, in place or between separate buffers", "why_tests_cant": "Sizes in adversarial headers may overflow; chains of notes are unbounded.", "anchors": ["libelf/note_xlate.h:elf_cvt_note"]}
{"id": "C52", "title": "Section headers stay available after sections are appended", "statement": "After elf_newscn has appended sections to a file opened for update, asking for the header of any section of the file still returns the header the file holds and touches no memory outside the descriptor's section table.", "quantifier": "all files and numbers of appended sections", "why_tests_cant": "Depends on the history of calls and the block structure of the section list.", "anchors": ["libelf/elf32_getshdr.c:load_shdr_wrlock", "libelf/elf_newscn.c:elf_newscn"]}
{"id": "C53", "title": "Section name string table index comes from the image", "statement": "elf_getshdrstrndx reports e_shstrndx, or, when that is SHN_XINDEX, sh_link of section header zero of the same ELF image, also for archive members.", "quantifier": "all ELF images, byte orders, and positions of the image inside an archive", "why_tests_cant": "All headers, offsets of members and access modes.", "anchors": ["libelf/elf_getshdrstrndx.c:elf_getshdrstrndx"]}
{"id": "C54", "title": "elf_rand leaves the archive descriptor unlocked", "statement": "elf_rand returns with the archive descriptor's lock in the state it found it, whether or not there is a member at the requested offset; on success it returns the requested offset and positions the archive there.", "quantifier": "all archive contents and offsets", "why_tests_cant": "The failing path is taken for every malformed header; a leaked lock shows only in a later call or another thread.", "anchors": ["libelf/elf_rand.c:elf_rand"]}
{"id": "C55", "title": "Long archive member names are terminated inside the name table", "statement": "Whatever the long name table of an archive contains, the name reported for a member that refers to any position inside it is a NUL-terminated string inside the library's copy of the table.", "quantifier": "all archive contents, all positions", "why_tests_cant": "Tables with missing or doubled terminators are unbounded in number.", "anchors": ["libelf/elf_begin.c:read_long_names", "libelf/elf_begin.c:__libelf_next_arhdr_wrlock"]}
{"id": "C56", "title": "The meaning of an abbreviation code does not depend on earlier lookups", "statement": "Within a unit an abbreviation code always stands for the declaration with that code in the unit's abbreviation table (or for nothing), whatever codes were looked up or abbreviations were read before.", "quantifier": "all section contents, all tables, all lookup histories", "why_tests_cant": "The lazily filled hash table makes results depend on history; a test sees a few orders only.", "anchors": ["libdw/dwarf_tag.c:__libdw_findabbrev", "libdw/dwarf_getabbrev.c:__libdw_getabbrev", "libdw/dwarf_getabbrev.c:dwarf_getabbrev"]}
{"id": "C57", "title": "Attribute queries on a DIE return the declared attributes", "statement": "dwarf_attr finds the first attribute with the given name and points to its value, dwarf_hasattr says whether there is one, dwarf_getattrs visits all attributes in order with their values and can be resumed where the callback stopped.", "quantifier": "all DIEs, attribute lists, forms, names and callback behaviours", "why_tests_cant": "The position of a value depends on the sizes of all values before it; combinations of forms are unbounded.", "anchors": ["libdw/dwarf_child.c:__libdw_find_attr", "libdw/dwarf_attr.c:dwarf_attr", "libdw/dwarf_hasattr.c:dwarf_hasattr", "libdw/dwarf_getattrs.c:dwarf_getattrs"]}
{"id": "C58", "title": "Attributes of an abbreviation are enumerated exactly", "statement": "dwarf_getattrcnt returns the number of attribute specifications of an abbreviation, dwarf_getabbrevattr_data returns name, form and implicit constant of each of them by index and fails for larger indices, without reading outside .debug_abbrev.", "quantifier": "all abbreviations, all indices", "why_tests_cant": "Attribute lists and implicit constants are unbounded; misreading needs particular encodings.", "anchors": ["libdw/dwarf_getabbrevattr.c:dwarf_getabbrevattr_data", "libdw/dwarf_getattrcnt.c:dwarf_getattrcnt"]}
{"id": "C59", "title": "dwarf_offdie finds the unit of an offset after any history", "statement": "After any history of lookups, dwarf_offdie gives every offset inside the section the unit that contains it and refuses offsets outside the section; the outcome of a lookup does not depend on the earlier ones.", "quantifier": "all well-formed sections, all histories of lookups, all offsets", "why_tests_cant": "The units are discovered lazily: every order of lookups is a different history.", "anchors": ["libdw/libdw_findcu.c:__libdw_findcu", "libdw/libdw_findcu.c:__libdw_intern_next_unit", "libdw/dwarf_offdie.c:dwarf_offdie"]}
{"id": "C60", "title": "Module lookup finds the module containing the address", "statement": "After any set of non-overlapping modules was reported, dwfl_addrmodule returns the module whose range contains the address, else the module that ends exactly there, else none, however often and in whatever order it is asked.", "quantifier": "all lists of modules and all addresses and sequences of lookups", "why_tests_cant": "the lookup table is built incrementally from modules in any order; a test sees a few layouts", "anchors": ["libdwfl/segment.c:reify_segments", "libdwfl/segment.c:dwfl_addrsegment", "libdwfl/dwfl_addrmodule.c:dwfl_addrmodule"]}
{"id": "C61", "title": "Assembled contents come out in the order they were added", "statement": "The data of a section in the finished file is everything added to it with the asm_add*, asm_align functions, in the order of the calls.", "quantifier": "all histories of calls on a section", "why_tests_cant": "how many memory blocks the data is spread over depends on the whole history", "anchors": ["libasm/asm_end.c:binary_end", "libasm/asm_align.c:__libasm_ensure_section_space"]}
{"id": "C62", "title": "Subsections are kept in order and laid out aligned without overlap", "statement": "Whatever subsections are created in whatever order, each number exists once, they are kept in ascending order, and in the finished section each begins at a multiple of its alignment behind the end of its predecessor.", "quantifier": "all sequences of subsection numbers, all alignments and sizes", "why_tests_cant": "unbounded numbers of subsections in any order", "anchors": ["libasm/asm_newsubscn.c:asm_newsubscn", "libasm/asm_end.c:binary_end"]}
{"id": "C63", "title": "The assembled symbol table lists local symbols first", "statement": "asm_end gives every symbol its own index from 1 to the number of symbols, local symbols before all others, and the index of the first other symbol is what sh_info says.", "quantifier": "all sequences of local and global symbols", "why_tests_cant": "unbounded numbers of symbols in any order", "anchors": ["libasm/asm_end.c:binary_end"]}
{"id": "C64", "title": "Location lists decode to the locations of the attribute", "statement": "dwarf_getlocations enumerates exactly the ranges and expressions a location list stands for, in order; dwarf_getlocation_addr returns exactly the expressions whose range contains the address, at most as many as asked for; neither reads outside the section, and both return, whatever the section contains.", "quantifier": "all location lists in the formats of DWARF 4, GNU DebugFission and DWARF 5, all addresses, all section contents", "why_tests_cant": "unbounded lists with LEB128 operands and lengths; malformed input", "anchors": ["libdw/dwarf_getlocation.c:getlocations_addr", "libdw/dwarf_getlocation.c:dwarf_getlocations", "libdw/dwarf_getlocation.c:dwarf_getlocation_addr", "libdw/dwarf_ranges.c:__libdw_read_begin_end_pair_inc"]}
{"id": "C65", "title": "Compressing and decompressing a section gives back its contents", "statement": "Compressing a section with elf_compress and decompressing it gives back its contents, size, alignment and flags; without force the section never grows; decompressing is safe for any contents, and never returns stale contents whatever operations came before.", "quantifier": "all sections of both classes and byte orders with any number of data buffers, all histories of compress, decompress and string lookups", "why_tests_cant": "All contents and sizes, in particular beyond 4 GiB, and all histories of operations.", "anchors": ["libelf/elf_compress.c:__libelf_compress", "libelf/elf_compress.c:__libelf_decompress", "libelf/elf_compress.c:elf_compress", "libelf/elf_strptr.c:get_zdata"]}
{"id": "C66", "title": "GNU style compression can be undone", "statement": "What elf_compress_gnu has compressed it can decompress: contents, size, flags and alignment come back; requests that make no sense are refused and leave the section unchanged.", "quantifier": "all sections and requests", "why_tests_cant": "All contents, including those zlib cannot compress.", "anchors": ["libelf/elf_compress_gnu.c:elf_compress_gnu"]}
{"id": "C67", "title": "An update sets the right entry sizes and rejects broken tables", "statement": "When elf_update lays out a file, it succeeds exactly if every section has a power-of-two alignment, data of the known version with power-of-two alignments, whole records (of the uncompressed size if compressed; not required with ELF_F_PERMISSIVE) and, for section groups, the file is relocatable. Afterwards sh_entsize of every section whose type fixes the record size is that size for the class and machine, other sections keep the entry size the program set, and sh_size is the size of the contents.", "quantifier": "all section lists, types, entry sizes, alignments, data blocks, classes and machines", "why_tests_cant": "Every combination of type, class, machine, block list and size.", "anchors": ["libelf/elf32_updatenull.c:updatenull_wrlock", "libelf/elf-knowledge.h:SH_ENTSIZE_HASH", "libelf/gelf_fsize.c:__libelf_type_sizes"]}
{"id": "C68", "title": "Repeated transfers are complete or reported, whatever the schedule", "statement": "The read and write primitives all of the library and tools use repeat interrupted and partial system calls: for every sequence of interruptions, errors and partial transfers, when they return, exactly a prefix of the buffer has been written at the right place (nothing else changed) and the result is its length or -1 after an error; a result equal to the requested length means everything is written; a read returns -1 or exactly the bytes of the file at the offset, as many as were asked for and exist.", "quantifier": "all schedules of system call outcomes, buffers, lengths and offsets", "why_tests_cant": "Schedules of interruptions and partial transfers are unbounded.", "anchors": ["lib/system.h:pwrite_retry", "lib/system.h:write_retry", "lib/system.h:pread_retry"]}
{"id": "C69", "title": "eu-strings prints exactly the strings of the file", "statement": "For every file (or section) eu-strings prints exactly the maximal runs of printable characters of at least the minimum length that are followed by an unprintable one, each once, in file order, with the right location, independently of how the data arrives, and without accessing memory outside the data.", "quantifier": "all contents, all ranges, all minimum lengths, all notions of printable, all sequences of read sizes, all character widths", "why_tests_cant": "Contents and split points are unbounded; boundary cases depend on where reads end relative to strings.", "anchors": ["src/strings.c:process_chunk", "src/strings.c:process_chunk_mb", "src/strings.c:read_block", "src/strings.c:read_block_no_mmap"]}
{"id": "C70", "title": "eu-ranlib writes an index that leads to every member", "statement": "After eu-ranlib on a well formed archive, the archive has one symbol index at its front, all other entries are unchanged and in their order, and elf_getarsym reports exactly the symbols of the members, each with the offset at which its member stands in the new file.", "quantifier": "all archives of any number of entries (short and long names, index anywhere or absent) whose new size is below 4 GiB, the limit of the 32-bit format; all assignments of symbols to members; mapped and unmapped readers", "why_tests_cant": "The offsets depend on the sizes of all preceding members and of the index itself; no set of archives covers them.", "anchors": ["src/ranlib.c:handle_file", "src/arlib.c:arlib_add_symbols", "src/arlib.c:arlib_finalize", "libelf/elf_getarsym.c"]}
{"id": "C71", "title": "eu-ar d deletes exactly the named members", "statement": "eu-ar d removes the first member of each given name, keeps every other member byte for byte and in order, and the result is a well formed archive whose index, if symbols remain, leads to the members.", "quantifier": "all archives and all lists of names; long and short member names", "why_tests_cant": "Sizes, names, orders and positions of members are unbounded, and members are copied in ranges that depend on all of them.", "anchors": ["src/ar.c:do_oper_delete", "src/ar.c:write_member", "src/arlib.c:arlib_finalize"]}
{"id": "C72", "title": "eu-ar q and r add and replace exactly the given files", "statement": "eu-ar q appends the files; eu-ar r replaces the first member of each file's name and appends the files without one. All other members are kept byte for byte and in order, the headers of the new members describe the files, and the result is a well formed archive whose index leads to the members.", "quantifier": "all archives, all lists of files (names, metadata, contents), both operations", "why_tests_cant": "Sizes, names, metadata and positions are unbounded, and ranges of old members alternate with new files in any pattern.", "anchors": ["src/ar.c:do_oper_insert", "src/ar.c:write_member", "src/ar.c:no0print", "src/arlib.c:arlib_finalize", "src/arlib2.c:arlib_add_long_name"]}
{"id": "C73", "title": "eu-ranlib never writes an index that is wrong", "statement": "If the offset of a member that defines symbols cannot be represented in the 32 bits of the index, eu-ranlib reports an error and leaves the archive alone.", "quantifier": "all archives of any size", "why_tests_cant": "Needs archives of more than 4 GiB with members at particular places.", "anchors": ["src/arlib.c:arlib_add_symbols", "src/arlib.c:arlib_finalize"]}
{"id": "C74", "title": "Numbers of attributes are read exactly", "statement": "dwarf_formudata and dwarf_formsdata return the number that the value encodes, for every form of class constant or index; a section offset is returned exactly if it lies inside the section that the attribute points into and is an error otherwise; any other form is an error. No value, however malformed, leads to an access outside the unit's section.", "quantifier": "all attributes, forms, byte orders, DWARF versions, values and unit contents", "why_tests_cant": "The product of forms, attributes, versions, byte orders and positions at the end of a unit is unbounded; tests use compiler output.", "anchors": ["libdw/dwarf_formudata.c:dwarf_formudata", "libdw/dwarf_formudata.c:__libdw_formptr", "libdw/dwarf_formsdata.c:dwarf_formsdata", "libdw/libdwP.h:__libdw_read_offset"]}
{"id": "C75", "title": "Addresses of attributes are read exactly", "statement": "dwarf_formaddr returns the address in the unit, or the entry of the unit's table in .debug_addr for an index; an index outside of the table is an error.", "quantifier": "all attributes, forms, byte orders, address sizes, indexes and tables", "why_tests_cant": "Indexes near the end of the table or whose product with the address size overflows are never produced by compilers.", "anchors": ["libdw/dwarf_formaddr.c:dwarf_formaddr", "libdw/dwarf_formaddr.c:__libdw_addrx"]}
{"id": "C76", "title": "Blocks and flags of attributes are read exactly and safely", "statement": "dwarf_formblock returns exactly the contents of the block and never a block that leaves the unit; dwarf_formflag returns whether the flag is set; neither reads outside of the unit.", "quantifier": "all attributes, forms, byte orders and unit contents", "why_tests_cant": "Truncated units and lengths that overflow have to be tried in every position.", "anchors": ["libdw/dwarf_formblock.c:dwarf_formblock", "libdw/dwarf_formflag.c:dwarf_formflag"]}
{"id": "C77", "title": "Strings of attributes are found and terminated", "statement": "dwarf_formstring returns the place of the string that the attribute names, in the unit, in .debug_str, .debug_line_str, the alternate file or by way of .debug_str_offsets; what it returns is a null-terminated string inside that section, and an offset or index outside is an error.", "quantifier": "all attributes, forms, offset sizes, byte orders, section contents", "why_tests_cant": "Tests use well-formed string sections; the claim is about every offset and every contents.", "anchors": ["libdw/dwarf_formstring.c:dwarf_formstring", "libdw/libdwP.h:__libdw_read_offset"]}
{"id": "C78", "title": "The scopes of a DIE are its ancestors", "statement": "dwarf_getscopes_die returns the DIE followed by its ancestors up to the unit, innermost first, if all of these ancestors are entries that own scopes (units, modules, blocks, functions, inlined subroutines, namespaces, classes, structures), with the children of imported units in the place of the import; for any other DIE it returns 0. It always returns.", "quantifier": "all units, of any depth and width, all DIEs, all imports that are not circular", "why_tests_cant": "Trees are of any shape and depth; tests look at a few DIEs of a few programs.", "anchors": ["libdw/dwarf_getscopes_die.c:dwarf_getscopes_die", "libdw/libdw_visit_scopes.c:__libdw_visit_scopes", "libdw/libdw_visit_scopes.c:walk_children"]}
{"id": "C79", "title": "The scopes of an address are the innermost ones", "statement": "dwarf_getscopes returns the DIEs that contain the address, innermost first, up to the unit; from an inlined subroutine on outwards, those that contain its abstract definition. It returns 0 only if no scope contains the address.", "quantifier": "all units, trees, addresses and assignments of ranges to DIEs", "why_tests_cant": "Needs all nestings of scopes and inlined subroutines; tests check the output for single binaries.", "anchors": ["libdw/dwarf_getscopes.c:dwarf_getscopes", "libdw/dwarf_getscopes.c:pc_match", "libdw/dwarf_getscopes.c:pc_record", "libdw/dwarf_getscopes.c:origin_match"]}
{"id": "C80", "title": "Addresses of a DIE", "statement": "dwarf_lowpc returns the address DW_AT_low_pc holds; dwarf_highpc the address DW_AT_high_pc holds, or that number added to the low address if it is a constant; dwarf_entrypc the entry address, given as address or as offset from the low address, and the low address without one; dwarf_haspc returns 1 if the address is in the DIE's range or in one of its list of ranges, and 0 if not. Nothing outside the sections is read.", "quantifier": "all DIEs, forms, section contents, address tables, lists of ranges of any length, all addresses", "why_tests_cant": "The number of entries in a list and of forms and combinations of attributes is unbounded; tests look at DIEs compilers happened to write.", "anchors": ["libdw/dwarf_lowpc.c:dwarf_lowpc", "libdw/dwarf_highpc.c:dwarf_highpc", "libdw/dwarf_entrypc.c:dwarf_entrypc", "libdw/dwarf_haspc.c:dwarf_haspc", "libdw/dwarf_ranges.c:dwarf_ranges"]}
{"id": "C81", "title": "The size of a type", "statement": "dwarf_aggregate_size returns the size in bytes the type has by the standard: its DW_AT_byte_size, else that of the type it modifies, the address size for pointers, and for arrays the product of the number of elements of all dimensions with the size (or stride) of an element.", "quantifier": "all types, dimensions, bounds given by lower and upper bound or count, and enumerations as index type", "why_tests_cant": "Any number of dimensions and any bounds; products over 64 bits are outside of what a test run sees.", "anchors": ["libdw/dwarf_aggregate_size.c:dwarf_aggregate_size", "libdw/dwarf_aggregate_size.c:array_size", "libdw/dwarf_aggregate_size.c:get_type", "libdw/dwarf_default_lower_bound.c:dwarf_default_lower_bound"]}
{"id": "C82", "title": "Inherited attributes and modified types", "statement": "dwarf_attr_integrate finds the attribute at the DIE itself or at the first DIE in the chain of DW_AT_abstract_origin and DW_AT_specification that has it; it finds nothing that is not on this chain. dwarf_peel_type returns the type below all entries that only modify a type (const, volatile, restrict, atomic, immutable, packed, shared, typedef), 1 if there is none (void), and stops with an error on circular types.", "quantifier": "all DIEs outside of split units; all chains of references, up to 16 links for attributes and up to 63 modifiers for types, and all circular ones", "why_tests_cant": "Chains of any shape and circular references; tests use acyclic ones from compilers.", "anchors": ["libdw/dwarf_attr_integrate.c:dwarf_attr_integrate", "libdw/dwarf_peel_type.c:dwarf_peel_type"]}
{"id": "C83", "title": "References lead to the DIE they name", "statement": "dwarf_formref_die returns, for each form of class reference, the DIE at this offset of the unit, of .debug_info, of the supplementary file, or the type of the unit with this signature, and an error if there is none, whatever calls were made on the handle before. Nothing outside the sections is read.", "quantifier": "all attributes, forms, units, files, and all histories of reading units and looking for signatures", "why_tests_cant": "The result of signatures must not depend on the history of calls; tests see one order.", "anchors": ["libdw/dwarf_formref_die.c:dwarf_formref_die", "libdw/libdw_findcu.c:__libdw_intern_next_unit", "libdw/dwarf_sig8_hash.c"]}
{"id": "C84", "title": "Macro entries are all delivered, once, in order", "statement": "dwarf_getmacros gives the callback each entry of the macro unit named by the compilation unit, in order, with its opcode and parameters, until the callback interrupts; calling again with the returned token goes on with the next entry; 0 is returned when all were seen. dwarf_macro_param1 and dwarf_macro_param2 return the values stored in the entry, and the line table is the one named in the header, otherwise the one of the compilation unit. None of this depends on earlier calls. Nothing outside the section is read, whatever it contains.", "quantifier": "all contents of .debug_macinfo and .debug_macro, headers (version, offset size, opcode tables), entries, callbacks and their decisions, tokens and histories of calls", "why_tests_cant": "The number of entries, the user-defined opcodes and the points of interruption are unbounded, and the cached tables make results depend on history.", "anchors": ["libdw/dwarf_getmacros.c:dwarf_getmacros", "libdw/dwarf_getmacros.c:dwarf_getmacros_off", "libdw/dwarf_getmacros.c:read_macros", "libdw/dwarf_getmacros.c:get_table_for_offset", "libdw/dwarf_macro_param1.c", "libdw/dwarf_macro_param2.c", "libdw/dwarf_macro_getsrcfiles.c"]}
{"id": "C85", "title": "ELF descriptors live exactly as long as they are needed", "statement": "Using only descriptors it still holds, a program never makes libelf use or free a descriptor or the memory of a file after it was freed, and every call returns. A descriptor exists exactly as long as the program holds a reference to it (one from each elf_begin or elf_memory that returned it, until elf_end) or a member of the archive is needed. elf_end returns the number of references that are left. elf_begin on a descriptor that is no archive returns the same descriptor. The memory elf_rawfile returned stays valid as long as the descriptor is needed. When everything was closed no descriptor and no memory is left.", "quantifier": "all histories of elf_begin (with and without reference, all commands), elf_memory, elf_end, elf_rawfile and elf_cntl with any files and archives nested to any depth, in any order of closing", "why_tests_cant": "The order in which archives and members are opened, loaded and closed is unbounded; leaks and uses after free show only for some orders.", "anchors": ["libelf/elf_begin.c:elf_begin", "libelf/elf_end.c:elf_end", "libelf/elf_memory.c:elf_memory", "libelf/elf_readall.c:__libelf_readall", "libelf/elf_rawfile.c:elf_rawfile", "libelf/elf_cntl.c:elf_cntl", "libelf/elf_clone.c:elf_clone"]}
{"id": "C86", "title": "The operations of a DWARF expression are shown as they stand in the file", "statement": "For a block that is a DWARF expression, dwarf_getlocation returns one entry for each operation, in order, with the opcode, the operands as the standard encodes them for that opcode and the offset of the operation in the block; for DW_OP_implicit_value, dwarf_getlocation_implicit_value gives exactly the bytes of its block. The same attribute gives the same array again whatever was asked before. A block with an unknown opcode, or that ends within an operation, is an error. No expression makes the library read outside the section. A constant member location is shown as DW_OP_plus_uconst with that constant; a location list is refused.", "quantifier": "all sections, blocks and expressions of any length in either byte order, address size and reference size, all attributes, and all histories of calls on one unit", "why_tests_cant": "The contents of expressions are arbitrary; each of about 170 opcodes has its own operands, and the cache makes a result depend on all earlier calls.", "anchors": ["libdw/dwarf_getlocation.c:__libdw_intern_expression", "libdw/dwarf_getlocation.c:dwarf_getlocation", "libdw/dwarf_getlocation.c:dwarf_getlocation_implicit_value", "libdw/dwarf_getlocation.c:check_constant_offset", "libdw/dwarf_getlocation.c:store_implicit_value", "libdw/libdwP.h:__libdw_read_address_inc"]}
{"id": "C87", "title": "Walking the stack shows the frames of the callers as the call frame information describes them", "statement": "dwfl_thread_getframes calls set_initial_registers, then its callback with the frame that this set up and with one frame after the other outwards until the callback returns something else than 0, which it returns; otherwise it returns 0 after the outermost frame and -1 if the next frame cannot be found; thread_detach is called exactly once if set_initial_registers succeeded. The caller of a frame has, for each register, the value that the rule of the row for the frame's address gives (in .eh_frame, else in .debug_frame of the module; the address before the PC unless the frame is the initial one or was interrupted by a signal), its PC is the value of the return address register, and without call frame information it is what the backend finds from the frame pointer. dwfl_frame_pc reports an activation exactly for the initial frame, for frames interrupted by a signal and those returning from one. memory_read may be NULL. Walks end.", "quantifier": "all registers and memory contents, all call frame information with any rules and expressions, all modules, all depths of the stack, all callbacks; the backends x86_64, i386, ppc64 and aarch64", "why_tests_cant": "Stacks have any depth, rows have any rule for any register including expressions of any length, and memory contents are arbitrary; tests walk a few well formed stacks.", "anchors": ["libdwfl/frame_unwind.c:__libdwfl_frame_unwind", "libdwfl/frame_unwind.c:handle_cfi", "libdwfl/frame_unwind.c:__libdwfl_frame_reg_set", "libdwfl/dwfl_frame.c:dwfl_thread_getframes", "libdwfl/dwfl_frame_pc.c:dwfl_frame_pc", "libdwfl/dwfl_frame_regs.c:dwfl_thread_state_registers", "libdw/dwarf_frame_register.c:dwarf_frame_register", "libdw/dwarf_frame_cfa.c:dwarf_frame_cfa", "backends/x86_64_unwind.c:x86_64_unwind", "backends/i386_unwind.c:i386_unwind", "backends/aarch64_unwind.c:aarch64_unwind", "backends/ppc64_unwind.c:ppc64_unwind"]}
{"id": "C88", "title": "Relocating the debugging sections of ET_REL modules stores S + A and nothing else", "statement": "When libdwfl relocates a section of an ET_REL module (as dwfl_module_getdwarf and dwfl_module_relocate do), every relocation whose type is known and whose symbol has a value changes the field at r_offset to S + A modulo its size (S + the old contents without an addend; the types that add or subtract change the old contents by S + A), one after the other, and no other byte changes. S is st_value for absolute symbols, st_value plus the load address of the section (the one in its header or the one that section_address tells) otherwise, the value of the first definition in the other modules for undefined and common symbols, and 0 for common symbols nobody defines. Relocations of unknown type or of symbols without value stay in the relocation section, in order, the others are removed, so that relocating again changes nothing. Section headers change only by receiving the address that section_address told. The ELF header and the header tables are never overwritten. No file content makes this overflow, read outside its buffers or run forever.", "quantifier": "all section contents, relocation lists, symbol and string tables, modules, answers of section_address, byte orders; the relocation types of x86_64, i386, aarch64, ppc64 and riscv", "why_tests_cant": "Relocation lists have any length and may overlap, symbols resolve through any number of modules, and the result depends on every byte of symbol tables and sections; tests relocate a handful of object files made by one compiler.", "anchors": ["libdwfl/relocate.c:__libdwfl_relocate", "libdwfl/relocate.c:__libdwfl_relocate_value", "libdwfl/relocate.c:__libdwfl_relocate_section", "libdwfl/relocate.c:relocate_section", "libdwfl/relocate.c:relocate", "libdwfl/relocate.c:resolve_symbol", "libdwfl/relocate.c:relocate_getsym", "backends/x86_64_symbol.c:x86_64_reloc_simple_type", "backends/i386_symbol.c:i386_reloc_simple_type", "backends/aarch64_symbol.c:aarch64_reloc_simple_type", "backends/ppc64_symbol.c:ppc64_reloc_simple_type", "backends/riscv_symbol.c:riscv_reloc_simple_type"]}
{"id": "C89", "title": "Listing the public names reports every name once, and can be continued", "statement": "dwarf_getpubnames calls its function once for every entry of every set of .debug_pubnames, in the order of the section, with the name, the offset of its DIE (the offset of the entry plus that of the unit) and the offset of the DIE of its unit, until the function does not answer DWARF_CB_OK. It returns 0 when all were reported, and otherwise an offset with which calling again reports the entries after the one it stopped at. A negative offset or malformed data give -1, an offset at or after the end 0. Whatever the sections hold, only terminated strings of the section are reported with offsets of units inside .debug_info, the listing ends, and nothing outside of the sections is read.", "quantifier": "all sections, sets of both formats and byte orders, numbers of sets and entries, functions of the caller (their answer depends on all calls so far), offsets", "why_tests_cant": "The number of sets and entries, the place where the caller stops and the bytes of a malformed section are unbounded; the test lists the names of two files from the start.", "anchors": ["libdw/dwarf_getpubnames.c:dwarf_getpubnames", "libdw/dwarf_getpubnames.c:get_offsets", "libdw/libdwP.h:__libdw_read_offset"]}
{"id": "C90", "title": "Updating a file in place moves sections without destroying them", "statement": "elf_update with ELF_C_WRITE on a descriptor opened with ELF_C_RDWR_MMAP writes through the mapping of the file, while data buffers and section headers still point into that mapping. Whatever sections grow, shrink or move, afterwards every data block holds at its new place the bytes its buffer held before the update, the headers and tables stand at their offsets, sections nobody read are untouched, the gaps hold the fill byte, and nothing outside the mapping is written; the result is the file that an update without a mapping would write.", "quantifier": "every old content of the file, every placement of sections, blocks, headers and their buffers inside or outside the mapping, every combination of dirty flags, every fill byte, every history of file sizes", "why_tests_cant": "whether a buffer is overwritten before it is copied depends on how old and new positions of all sections overlap", "anchors": ["libelf/elf32_updatefile.c:updatemmap", "libelf/elf32_updatefile.c:fill_mmap", "libelf/elf_update.c:write_file"]}
{"id": "C91", "title": "Debug links, alternate links and build IDs are the ones in the file", "statement": "dwelf_elf_gnu_debuglink returns a name and a CRC exactly when the first section named .gnu_debuglink holds them: the name, a zero byte, padding, and the CRC in the byte order of the file as the last four bytes. dwelf_dwarf_gnu_debugaltlink returns a name and an ID exactly when the section holds the name, a zero byte and a non-empty ID. dwelf_elf_gnu_build_id returns the descriptor of the first note of type NT_GNU_BUILD_ID with the name GNU, in the first section or segment of notes that has one. dwelf_scn_gnu_compressed_size returns the size in the header of a section in the old compressed format, and -1 for any other section. Nothing outside of the data is read, and the search ends.", "quantifier": "every list of sections or program headers, either byte order, every content of the data", "why_tests_cant": "Files come from anywhere; a link without terminating zero, a CRC that overlaps the name, notes with any sizes and paddings are all possible, and tests have only the few that compilers write.", "anchors": ["libdwelf/dwelf_elf_gnu_debuglink.c:dwelf_elf_gnu_debuglink", "libdwelf/dwelf_dwarf_gnu_debugaltlink.c:dwelf_dwarf_gnu_debugaltlink", "libdwelf/dwelf_elf_gnu_build_id.c:dwelf_elf_gnu_build_id", "libdwelf/dwelf_scn_gnu_compressed_size.c:dwelf_scn_gnu_compressed_size"]}
{"id": "C92", "title": "A separate debug file is found in the documented places and used only if it belongs to the file", "statement": "dwfl_standard_find_debuginfo looks for a debug file by build ID, as .build-id/xx/yyyy.debug below the absolute elements of the path, and then by name, in the elements of the path in their order, each of which stands for the documented directories (for an alternate file also .dwz). The first file that is there and belongs to the module is returned: it has the build ID of the alternate link or of the module, or without build ID the CRC of the link, where the signs in the path ask for it. It is never the file itself. Nothing is found only if there is no such file, unless a name cannot be opened for another reason than that it does not exist. The descriptor returned is open, and each descriptor is closed once.", "quantifier": "every file system, path, module, file name, link, CRC and state before", "why_tests_cant": "The answer depends on the whole file system and on the syntax of the path; tests have a few directories with the right files in the usual places.", "anchors": ["libdwfl/find-debuginfo.c:dwfl_standard_find_debuginfo", "libdwfl/find-debuginfo.c:find_debuginfo_in_path", "libdwfl/dwfl_build_id_find_debuginfo.c:dwfl_build_id_find_debuginfo", "libdwfl/dwfl_build_id_find_elf.c:__libdwfl_open_by_build_id"]}
{"id": "C93", "title": "The units and lines of a module do not depend on the history of lookups", "statement": "dwfl_module_nextcu, started with NULL, visits exactly the units of .debug_info in their order; a unit is always given as the same DIE, however it was found. dwfl_module_addrdie gives for an address inside a range of .debug_aranges the unit the range names, and refuses addresses below all ranges and beyond the last one. dwfl_module_getsrc gives the row of the line table of that unit that covers the address. All this holds after any sequence of these calls, with any addresses and any units as arguments.", "quantifier": "every module with valid unit headers, every range table, bias and address, and every history of calls of dwfl_module_nextcu and dwfl_module_addrdie with any arguments", "why_tests_cant": "The module keeps lazily built tables that each call changes (units interned, runs of ranges with or without unit, the length of the chain still unknown); a wrong update shows only after particular sequences of calls.", "anchors": ["libdwfl/cu.c", "libdwfl/dwfl_module_nextcu.c", "libdwfl/dwfl_module_addrdie.c", "libdwfl/dwfl_module_getsrc.c", "libdwfl/lines.c"]}
{"id": "C94", "title": "The lines of a source position are the exact ones, or the best one of each file", "statement": "dwarf_getsrc_file and dwfl_module_getsrc_file find the lines of all line tables of a file, a line and a column: a name without slash means the last component of the path, a name with one the whole path; for each such file the result has all lines with exactly the position asked for, in order, or if there is none the last of the lines at the smallest position behind it; files come in the order of their first lines. A limit given by the caller cuts the result after that many lines, and nothing is written beyond the array of the caller. Without such a line the call fails with 'no match', and if the tables are invalid with an error, and then holds no memory. The result does not depend on earlier calls.", "quantifier": "every sequence of units with any line tables (valid or not), every name, line, column and limit, every pending error number, and any failure of memory allocation", "why_tests_cant": "The best line is chosen by comparing pairs of rows in the order of the table, with caching of the last file name, across units and with a limit; a wrong comparison shows only for particular orders of rows.", "anchors": ["libdw/dwarf_getsrc_file.c", "libdwfl/dwfl_module_getsrc_file.c"]}
{"id": "C95", "title": "Line tables of DWARF 5: directories and files in any form and order of fields", "statement": "dwarf_getsrclines and dwarf_getsrcfiles on a unit of version 5: whatever content types the header describes, in any order, with vendor-defined ones in between and in any of the allowed forms, the directories are those of the table, file k is entry k of the table of files with the path of its directory in front unless it is absolute, with its time and size, followed by the files the program defines; rows refer to them by these numbers. A path is the string of its form: inline, in .debug_str, .debug_line_str or the supplementary file, or by index in the table of string offsets. On an arbitrary section the call ends, with lines or an error, and reads nothing outside the sections.", "quantifier": "every unit of version 5 (both offset sizes, address sizes 4 and 8, both byte orders), every list of descriptions with the allowed forms, every number of directories and files, every program; safety: every content of the sections", "why_tests_cant": "The format of the tables is itself data: descriptions, forms and their order multiply to far more layouts than any test covers, and producers emit only two or three of them.", "anchors": ["libdw/dwarf_getsrclines.c", "libdw/libdwP.h:libdw_valid_user_form", "libdw/dwarf_getsrcfiles.c", "libdw/dwarf_filesrc.c"]}
{"id": "C96", "title": "The symbols of a module: which ones, in which order, with which value", "statement": "dwfl_module_getsymtab gives the number of symbols of a module, dwfl_module_getsymtab_first_global how many of them are local, and dwfl_module_getsym / dwfl_module_getsym_info report each one: the symbols of .symtab of the main file, or else of the debug file, or else those of .dynsym followed by those embedded in .gnu_debugdata (without a second empty symbol), all local ones before all global ones, each exactly once and in the order of its table. The section index is the extended one if needed, the name is that of its string table, the value is as it is for absolute, common and undefined symbols, relocated in relocatable files, otherwise in the address space of the process by the bias of the file it is from; the address in a function descriptor is replaced by that of the code, unless st_value is asked to be adjusted. Other numbers, bad names and values that cannot be relocated are errors. The answers do not depend on earlier calls.", "quantifier": "every module whose main file, debug file and embedded file have well-formed symbol tables of any size (or dynamic symbols without section headers), every bias, every backend, every sequence of calls and every number", "why_tests_cant": "Tables, biases, section headers and histories are arbitrary, the two tables are interleaved by arithmetic on four counters, and the wrong cases need unusual combinations of tables", "anchors": ["libdwfl/dwfl_module_getsym.c:__libdwfl_getsym", "libdwfl/dwfl_module_getdwarf.c:find_symtab", "libdwfl/dwfl_module_getdwarf.c:load_symtab", "libdwfl/dwfl_module_getdwarf.c:find_aux_sym", "libdwfl/dwfl_module_getdwarf.c:dwfl_module_getsymtab", "libdwfl/dwfl_module_getdwarf.c:dwfl_module_getsymtab_first_global"]}
{"id": "C97", "title": "Dynamic symbols are found without section headers", "statement": "For a module whose file has no section headers (stripped, or read from memory), libdwfl finds the dynamic symbols through the program headers: the first PT_DYNAMIC segment that can be read says where the symbols, the strings and the hash tables are, as addresses of the file or already moved to where the module is loaded; the PT_LOAD segments say where in the file these are; and the number of symbols is that of DT_HASH, else the end of the chains of DT_GNU_HASH, else as many as fit before the strings. dwfl_module_getsymtab and dwfl_module_getsym then report exactly these symbols, with their names. Whatever the file contains, the search ends and reads nothing outside of the file.", "quantifier": "every file, of either class and byte order, with any program headers, dynamic section, hash tables and number of symbols; for the last part arbitrary bytes and program headers", "why_tests_cant": "Layouts of segments, hash tables and dynamic sections are arbitrary, and damaged files are unlimited in number; the number of symbols is implied by a walk through data whose end only the data mark", "anchors": ["libdwfl/dwfl_module_getdwarf.c:find_dynsym", "libdwfl/dwfl_module_getdwarf.c:translate_offs", "libdwfl/dwfl_module_getdwarf.c:find_offsets", "libdwfl/dwfl_module_getsym.c:__libdwfl_getsym"]}
{"id": "C98", "title": "Memory of a core file is read as it was in the process", "statement": "For a core file, dwfl_core_file_report reads the memory of the process to find its modules, and unwinding after dwfl_core_file_attach reads words of it. What they get is what the PT_LOAD segments of the core file have for these addresses: also across segments that follow each other, with at least as much as was asked for, up to the end of a string if a string was asked for, and never bytes that are not part of the memory. Reading fails exactly if something that was asked for is not in the core file. The word for unwinding is that of the memory, in the byte order of the core file.", "quantifier": "every core file, mapped or not, with any number and sizes of segments, every page size, every address, and every size of request and of buffer", "why_tests_cant": "Addresses, segments and sizes are arbitrary, and the code computes file ranges by wrapping and rounding arithmetic over several segments; tests use the layout that one kernel writes", "anchors": ["libdwfl/core-file.c:dwfl_elf_phdr_memory_callback", "libdwfl/core-file.c:do_more", "libdwfl/core-file.c:update_end", "libdwfl/linux-core-attach.c:core_memory_read"]}
{"id": "C99", "title": "The threads of a core file are those of its notes", "statement": "After dwfl_core_file_attach the process and its threads are what the notes of the core file say. Attaching returns the PID of the first NT_PRPSINFO note. dwfl_getthreads calls the callback for each NT_PRSTATUS note that has the size of the machine, in the order of the notes and with the TID of the note, until the callback returns something other than DWARF_CB_OK, and returns that; dwfl_getthread_frames works on the first thread with the TID and fails with ESRCH if there is none. Each thread starts with the registers in its own note: on x86_64 every general register, the stack pointer and the instruction pointer is the word at its place in user_regs_struct, and no others are set. Callbacks may themselves use these functions.", "quantifier": "every note data, with any number, order and kinds of notes, of either alignment and byte order; every backend with Linux notes (registers: x86_64); every callback and every TID", "why_tests_cant": "The number and order of notes and what callbacks do are unlimited; tests use cores of one kernel and callbacks that never look at another thread", "anchors": ["libdwfl/linux-core-attach.c:dwfl_core_file_attach", "libdwfl/linux-core-attach.c:core_next_thread", "libdwfl/linux-core-attach.c:core_set_initial_registers", "libdwfl/dwfl_frame.c:dwfl_getthreads", "libdwfl/dwfl_frame.c:dwfl_getthread_frames", "backends/linux-core-note.c:core_note", "backends/x86_64_corenote.c:prstatus_regs"]}
