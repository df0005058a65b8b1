# Formal model of elfutils (roolebo/elfutils) in Lean 4 — design

## Approach

The code is modelled function by function as total computable Lean functions.
Every definition cites the file and lines in /repo it models; simplifications are
stated in the same comment.  Each component lives in its own directory:

    lean/Verif/<Component>/Model.lean    the code as it is
    lean/Verif/<Component>/Spec.lean     small independent specification
    lean/Verif/<Component>/Lemmas.lean   helper lemmas
    lean/Verif/<Component>/Props.lean    property theorems + non-vacuity examples

(small components merge some of these files.)

Conventions

* Machine integers are `BitVec n` (or `Nat` with an explicit `% 2^n` when the
  code's wrap-around matters; plain `Nat` only where a stated bound excludes
  wrap-around).
* A buffer is a `List Byte`, a pointer into it a `Nat` offset.
* Undefined behaviour (out-of-bounds read/write, division by zero, shift by
  more than the width, signed overflow, failed `assert`) is the separate outcome
  `Res.ub`; an error return of the API is `Res.err`.
* A loop becomes structural recursion, or recursion on fuel; when fuel is used,
  either the fuel is proved sufficient, or the code's real non-termination is the theorem.
* Where the code violates the English property, the negation is proved with a
  concrete witness (suffix `_violation`) and the largest correct fragment is proved as
  `_partial`.

The host is taken to be a little-endian LP64 machine (x86_64 Linux/glibc) unless a
definition has an explicit host parameter.

## Plan per property

| id | modelled | proof |
|----|----------|-------|
| C01 | `__libdw_get_uleb128` on a buffer with `end` | functional spec (sum of 7-bit groups) by induction on the loop |
| C02 | `__libdw_get_sleb128` | same; ten-byte values are a violation (nine-byte limit) |
| C03 | `asm_adduleb128` encoder loop | round trip with C01 by induction on the number |
| C04 | `asm_addsleb128` encoder loop | violation witness + exact characterisation of the correct values |
| C05 | the unaligned readers | equality with the positional value of bytes; `read_3ubyte_unaligned_inc` violation |
| C06 | `_dl_elf_hash` on 64-bit words | equality with the gABI fold by induction |
| C07 | `elf_gnu_hash` | equality with fold mod 2^32 |
| C08 | table driven `crc32` | equality with the bitwise definition, composition by induction |
| C09 | `is_prime`, `next_prime` | trial-division loop invariant; Nat.Prime |
| C10 | dynamic-size hash with resize | refinement to an association list, by induction over histories |
| C11 | probe loop of the same | coprimality of the step with prime size, pigeonhole |
| C12 | dwelf_strtab as a tree with suffix chains | invariant over additions, then finalize correctness |
| C13 | same | invariant over additions |
| C14 | `gelf_getnote` incl. the 32-bit mask macros | arithmetic, violation for >= 4 GiB data |
| C15 | `elf32/64_xlateto{m,f}` and record tables | involution of per-field swaps |
| C16 | same | per-field positional specification |
| C17 | conversion loops over an explicit memory | equality for in-place/disjoint/forward overlaps, violation for the rest |
| C18 | `elf_cvt_Verdef/Verneed` over a buffer with UB | bounds invariant over the walk |
| C19 | fsize tables | exhaustive over finite table |
| C20 | block list of sections | refinement to flat list over histories |
| C21 | `__elfw2(LIBELFBITS,updatenull_wrlock)` | invariant over the section loop, with wrap-around and 32-bit casts; violation |
| C22 | `updatefile` writes to an abstract file | frame/ordering invariants |
| C23 | `elf_strptr`/`validate_str` | case analysis |
| C24 | archive header parsing and iteration | measure; `read_long_names` violation |
| C25 | `elf_getarsym` | violation witnesses + partial |
| C26 | `elf_getdata_rawchunk` | arithmetic on 64-bit values |
| C27 | `get_shnum`, phdr count check | arithmetic on 64-bit values |
| C28 | `execute_cfi` | refinement to DWARF row semantics; violation (restore_state start) |
| C29 | same with UB on reads | violation witness + partial |
| C30 | `read_encoded_value` | per-encoding spec; violations |
| C31 | `dwarf_next_cfi` | bounds/progress |
| C32 | `dwarf_getarange_addr` | binary search invariant; violation for empty ranges |
| C33 | `dwarf_getsrc_die` | binary search invariant |
| C34 | line program interpreter | refinement to DWARF state machine; 32-bit wrap violation |
| C35 | `__libdw_form_val_len` | per-form spec; block length wrap violation |
| C36 | `__libdw_allocate`/`libdw_alloc` | invariant over histories |
| C37 | `binary_search_fde`, tree compare | binary search invariant |
| C38 | segment table | refinement over histories |
| C39 | `expr_eval` | step-indexed semantics, bounds invariants; UB witnesses |
| C40 | `find_section` | binary search invariant |
| C41 | `__libdwfl_addrsym` | fold invariant |
| C42 | module list with gc flags | refinement over histories |
| C43 | `elf_compress` decision logic | violation (`compressed == 1`) |
| C44 | `asm_addint*` | violation (inverted NOBITS test) + exact behaviour |
| C45 | `asm_align` + block list | invariant |
| C46 | `__libdw_next_unit` | progress; out-of-bounds violation |
| C47 | range list reader | spec + progress |
| C48 | `__libdw_getabbrev` | bounds + length |
| C49 | DIE tree navigation | structural induction over trees |
| C50 | gelf get/update accessors | per-record round trip against a field-list specification |
| C51 | note conversion in place and to a separate buffer | induction over the notes; 32-bit wrap violation |
| C52 | loading section headers after appending sections | block-list invariant; violation |
| C53 | `elf_getshdrstrndx` | case analysis; violation for unmapped members |
| C54 | `elf_rand` | lock bookkeeping; violation |
| C55 | long member names | the name returned ends inside the name table, for all contents |
| C56 | abbreviation lookup with its hash | history invariant; collision violations |
| C57 | `dwarf_attr`, `dwarf_hasattr`, `dwarf_getattrs` | induction over the attribute list |
| C58 | `dwarf_getabbrevattr`, `dwarf_getattrcnt` | induction over the declaration; violations |
| C59 | `dwarf_offdie` and the unit tree | history invariant |
| C60 | `dwfl_addrmodule` | table invariant; violation |
| C61 | data handed to libelf by `asm_end` | list of blocks; rotation violation |
| C62 | subsections | order invariant; 32-bit mask violation |
| C63 | symbol table of `asm_end` | permutation with locals first |
| C64 | location lists | refinement to list semantics; endless loop violation |
| C65 | `elf_compress` round trip | zlib as a parameter with stated laws |
| C66 | `elf_compress_gnu` round trip | same |
| C67 | entry sizes and acceptance of an update | exact success condition by induction over sections and blocks; 32-bit violations |
| C68 | `pwrite_retry`, `write_retry`, `pread_retry` | induction over arbitrary schedules of system call outcomes |
| C69 | `process_chunk`, `process_chunk_mb`, `read_block`, `read_block_no_mmap` of eu-strings | loop invariant against the runs of the data; reads as an arbitrary list of chunks; violations |
| C70 | `handle_file` of eu-ranlib, `arlib_*` | refinement: output bytes equal the entries of a specified archive; composition with the model of `elf_getarsym` |
| C71 | `do_oper_delete`, `write_member` | same, with the ranges of `write_member` as loop invariant; violations for long names |
| C72 | `do_oper_insert` for `q` and `r` | same; header fields as numbers; violations for long names |
| C73 | offsets of the index near 4 GiB | error by induction over the scan; violation |
| C74 | `dwarf_formudata`, `dwarf_formsdata`, `__libdw_formptr` | case analysis over forms against an encoding relation; violations at the end of a unit and for indirect forms |
| C75 | `dwarf_formaddr`, `__libdw_addrx` | same; wrap violation |
| C76 | `dwarf_formblock`, `dwarf_formflag` | same; violation for a flag behind the unit |
| C77 | `dwarf_formstring` | same; violations for unterminated sections and the end of `.debug_str` |
| C78 | `dwarf_getscopes_die`, `__libdw_visit_scopes` | walk over DIEs equals walk over a forest by induction; path relation |
| C79 | `dwarf_getscopes` | same with the state of the visitors as invariant; violations |
| C80 | `dwarf_lowpc`, `dwarf_highpc`, `dwarf_entrypc`, `dwarf_haspc` | over the functions of C47 and C75; the list of ranges by induction; violations |
| C81 | `dwarf_aggregate_size`, default lower bounds | over an abstract interface to DIEs; induction over dimensions and types; violations |
| C82 | `dwarf_attr_integrate`, `dwarf_peel_type` | same interface; induction over the chain |
| C83 | `dwarf_formref_die`, the table of type signatures | invariant of the table over all histories of calls; violations |
| C84 | `dwarf_getmacros`, `dwarf_getmacros_off`, `dwarf_macro_param1/2`, the line table of macros | induction over entries; sessions of interrupted calls; invariant of the cache over all histories; violations |
| C85 | descriptors, their references, parents and children, and the memory of files, for `elf_begin`, `elf_end`, `elf_memory`, `elf_clone`, `elf_rawfile`, `elf_cntl` | what the user knows is tracked separately; invariant over all histories of calls; violations |
| C86 | `__libdw_intern_expression`, `dwarf_getlocation`, `dwarf_getlocation_implicit_value` with the caches | the grammar of expressions is a relation over bytes, with the table of operands of the standard; induction over operations; invariant of the cache over all histories of calls; violations |
| C87 | `dwfl_thread_getframes`, `__libdwfl_frame_unwind`, `handle_cfi`, `dwarf_frame_register`, `dwarf_frame_cfa`, `dwfl_frame_pc`, the unwinders of x86_64, i386, aarch64 and ppc64 | rules of rows are a relation, connected with C28, C39 and C86; invariant of the loop over registers; induction over the stack; a measure for walks by the backends; violations |
| C88 | `relocate_section`, `relocate`, `relocate_getsym`, `resolve_symbol`, `__libdwfl_relocate_value`, the removal of applied relocations, the tables of relocation types of five backends | what relocations mean is a relation over contents, symbols and load addresses, shown to determine the result; induction over relocations, symbols and modules; safety, completeness and repetition; violations |
| C89 | `dwarf_getpubnames`, `get_offsets`, `__libdw_read_offset` | sections are a relation over sets and their bytes; induction over sets and entries; soundness and safety for arbitrary bytes; violations |
| C90 | `__elfNN_updatemmap`, `fill_mmap`, `write_file` (the mapping) | buffers are memory of the descriptor or windows of the mapping, whose bytes change under the writes; invariant over the loops: nothing behind the last position has changed; equality with `updatefile` byte for byte; histories of sizes; violations |
| C91 | `dwelf_elf_gnu_debuglink`, `dwelf_dwarf_gnu_debugaltlink`, `check_notes`, `find_elf_build_id`, `dwelf_scn_gnu_compressed_size` | equivalences between the results and decompositions of the data; the build ID as a relation over the notes of C14; violation |
| C92 | `dwfl_standard_find_debuginfo`, `find_debuginfo_in_path`, `validate`, `try_open`, `dwfl_build_id_find_debuginfo`, `__libdwfl_open_by_build_id` | file system as a function from names; places as lists computed from the components of directories; induction over components and elements; soundness for arbitrary strings; descriptors as an invariant; violations |
| C93 | `dwfl_module_nextcu`, `__libdwfl_addrcu`, `intern_cu`, `cuoff`, `arangecu`, `dwfl_module_getsrc` | state of the module with an invariant over all histories of calls; units as the tiling of `.debug_info` of C61, ranges as a sorted list; binary search by interval induction; violations |
| C94 | `dwarf_getsrc_file`, `dwfl_module_getsrc_file` | the search as a fold over the lines; answer as a specification per file (exact lines or best line, order of files); the limit by `take`; safety for arbitrary tables; violations |
| C95 | tables of version 5 in `read_srclines`: descriptions, `dwarf_formstring`, `dwarf_formudata`, `__libdw_form_val_len` on the fake unit | byte relations for descriptions, entries and tables parametrised by the forms; induction over fields and entries; reuse of C34 (program), C35 (lengths of forms), C74 and C77 (values of forms); safety for arbitrary sections; violations |
| C96 | `find_symtab`, `load_symtab`, `find_aux_sym`, `dwfl_module_getsymtab`, `dwfl_module_getsymtab_first_global`, `__libdwfl_getsym` | module state built from the files; specification as the list of local and global entries of one or two tables; arithmetic on indices by cases; invariance of the module under calls; violations |
| C97 | `find_offsets`, `translate_offs`, `find_dynsym` | byte relations for the dynamic section and both hash tables; induction over entries, segments, buckets and chains; composition with C96; safety for arbitrary files; violations |
| C98 | `dwfl_elf_phdr_memory_callback`, `do_more`, `update_end`, `core_memory_read` | memory as a relation between addresses and bytes given by the segments; invariant of the loop over segments with the last used segment as ghost state; soundness and completeness; violations |
| C99 | `dwfl_core_file_attach`, `core_next_thread`, `core_set_initial_registers`, `dwfl_getthreads`, `getthread`, `core_note`, x86_64 registers | chain of notes by the relation of C14; induction over the chain for the inner loop and over the threads for the outer one, with callbacks as state transformers that share the position; violations with nested callbacks |
| C100 | `proc_maps_report` with `sscanf`'s conversions: lines, fields, runs of mappings, the vDSO; the text of a map is specified as an inductive grammar | parse of a printed line by induction on numerals; runs by induction on the list of runs |
| C101 | `grovel_auxv` with its pieces of 1024 bytes read in both formats, `get_pid_class`, `dwfl_linux_proc_report` | each view is a fold over the entries, by induction on pieces; a vector of one format seen in the other |
| C102 | `__libdwfl_elf_address_range` (sections of relocatable files with the layout that starts again, segments of the others), `process_elf` with the next free address | invariant of the loop over the sections: every section so far is aligned, above the base and below the end; rounding up by a power of two as least multiple; induction over the sequence of files |
| C103 | `dwarf_getfuncs`, `tree_visitor` on top of the walk of Scopes | the walk as fold over the forest, by induction on the forest; resuming as suffix of the list of functions |
| C104 | `dwarf_entry_breakpoints`: binary search, marks, second row, ranges; the error state around `dwarf_getsrclines` | invariant of the binary search; sorted rows; induction over the ranges |
| C105 | `dwarf_getscopevar`, `file_matches` over readable scopes | induction over the children of a scope and over the scopes |
| C106 | `x86_64_return_value_location`, `dwarf_peeled_die_type` on top of Types; location descriptions as maps from bytes to places, the psABI as such a map | case analysis over what DIEs describe, equality of the two maps on all bytes |
| C107 | `nlist`, the hash table of fixedsizehash.h with `elf_hash` (Hash) and `next_prime` (Prime) | the probe sequence is a permutation of the slots (step coprime to the prime size); invariant: each used slot is reached over slots used for other names, the table is never full; induction over the symbols |
| C108 | `elf32_checksum`/`elf64_checksum`, `SECTION_STRIP_P`, `elf_rawdata` and `elf_getdata` as far as lists of data are concerned; CRC of Hash; conversions are parameters | CRC of a concatenation; induction over the list of data and over the sections |
| C109 | report_r_debug with its buffer, the strings, the build ID check and the record list; the memory callback is a parameter | refinement: a chain predicate over memory gives the record list, by induction on the chain; safety by an invariant of the buffer |
| C110 | auxv_format_probe, AUXV_SCAN, consider_phdr, the loops over program headers and the dynamic section | round trip from vectors, headers and dynamic entries written as bytes to the address found |
| C111 | the error variables of libelf, libdw, libdwfl and libasm per thread, setting, errno and errmsg functions; tables of messages by their sizes | simulation: the state of a thread is a function of its own history, induction over the interleaving |
| C112 | the part of handle_elf in strip.c that marks, revives and renumbers sections, ebl_section_strip_p; names by the questions asked about them | invariants of a pass (what is behind it) and of the state; a measure for termination; soundness and completeness against inductive predicates |
| C113 | the part of handle_elf in strip.c that removes symbols in place and rewrites relocations, groups, versions and hash tables | refinement to an inductive description of the new table; correspondence of numbers by an invariant of the loop; chains of the hash table by induction over the symbols entered |
| C114 | elf_from_remote_memory over an abstract callback: header, program header table, size of the image, copy loop, header written back | the copy loop is described by the last segment whose pages cover a byte; with a file mapped as by mmap this is the byte of the file; concrete witnesses for the violations |
| C115 | buf_read_ulong and handle_file_note over the bytes of the note | reading an encoded list of mappings is a loop over the list (induction); for ordered mappings the indices are computed; soundness for any bytes by an invariant |
| C116 | `consider_phdr` over all program headers, the reported bounds, and the local image | invariants of the loop for bounds, bias and size; image by induction over the segments with an abstract memory; violations by evaluation |
| C117 | `read_portion` and the loop of `consider_notes` | induction over encoded notes for completeness, over fuel for soundness and termination |
| C118 | `check_notes`, `check_module_notes` for the running kernel | the first note by unfolding; the loop over files by induction; violations by evaluation |
| C119 | Opening of compressed files and kernel images: the decompression loops with abstract libraries, the boot header, the choice of kinds and the fate of the descriptor | Induction over the loops with a relation between what is left of input and output; decision logic for the rest |
| C120 | Choice of sections by dwarf_begin_elf: comparison of names, groups, decompression, first section wins | Soundness of the comparison for all names and a table of all accepted names; induction over the sections |
| C121 | dwarf_next_lines over an encoded section with units as a list | Reading of an encoded table; induction over the tables with an invariant about the unit passed back |
| C122 | `dwfl_getmodules` with both styles of offsets; the back pointers of `reify_segments` on top of the model of the table in Segment | loop lemma by induction on the list; places in the list as a relation on offsets; sequences of calls by induction; the correction loop by induction on the table; violations on concrete tables |
| C123 | `dwarf_getsrclines`, `dwarf_getsrcfiles`, `__libdw_getsrclines` and `dwarf_decl_file` with the pointers kept in units and the tree of tables kept in files; reading a table is a parameter | invariant: what is kept is what the specification says, by induction over histories; violation for split units for all reachable states, others on concrete files |
| C124 | `__libdw_filepath`, `find_debug_altlink`, `dwarf_getalt`, `dwarf_setalt`, `try_split_file`, `__libdw_find_split_unit`; files that can be opened and the units in them are parameters; opening and closing are events | equations for the paths and the buffer by induction on the build ID; the search by cases over the places; the events by membership; violations on a concrete file system and for all states |
| C125 | `elfXX_newehdr`, `elfXX_newphdr`, `elfXX_getphdr`, `elf_getphdrnum`, `gelf_getphdr`, `gelf_update_phdr` on the state of a handle: table, where it was allocated, numbers, flags | refinement of a list of program headers: invariant preserved by each call, induction over the calls; violations for all states with the fatal combination |
| C126 | `ebl_object_note` without the function of the machine: what is printed is a list of items, the descriptor a list of bytes with reads outside undefined | induction over the list of properties with the position generalised; the searches for zero bytes by induction; violations for all descriptors with the fatal size |
| C127 | `__libdwfl_ptrace_attach`, `read_cached_memory`, `pid_memory_read`, `pid_set_initial_registers`, `pid_thread_detach`, `dwfl_thread_getframes`, `dwfl_getthread_frames`, `pid_next_thread`, `dwfl_getthreads`; the answers of the kernel are parameters and what is asked of it is a list of events | events by induction over the signals that come in; state of the thread as a fold over the events; invariant of the cache, induction over reads and over calls; violations for all states |
| C128 | `bpf_disasm` with its table of codes, `disasm_cb`, `disasm_str`, `buffer_cb` | Spec: instructions with their bytes and texts; the loop refined over every program by induction; bounds by induction over the loop; violations for all programs and buffers |
| C129 | `dwarf_getlocation_die`, `dwarf_getlocation_attr`, `dwarf_getlocation_implicit_pointer`, `__libdw_offdie`, reading from `.debug_addr` | Spec: relation from operations and operands to references; case analysis over all operations and the order of the units; violations for all units and tables |
| C130 | `dwfl_linux_proc_attach`, `pid_detach`, `dwfl_attach_state`, `dwfl_pid`, `__libdwfl_process_free`, `dwfl_end`, `dwfl_report_begin/_module/_end` over a list of open resources | Spec: status lines, usable modules; closed form of an attempt by cases over the answers of the system; invariant "all that is open belongs to the process" by induction over histories; violations for all handles |
| C131 | the fourteen `*_register_info` hooks, `ebl_register_info`, `dwfl_module_register_names` | Spec: tables of names by DWARF number; the switches compared with the tables over their whole domain by kernel evaluation, numbers and sizes outside by arithmetic, the enumeration by induction for every callback; violations for all sizes and numbers concerned |
| C132 | The seven `ebl_*_name` functions and the hooks of the backends; a buffer is its list of cells, `snprintf` cuts | Every choice follows a table of constants and ranges transcribed from elf.h; decimal and hexadecimal spelling is injective, prefixes and names are apart (kernel evaluation over the tables) |
| C133 | `elf32_offscn`, `elf64_offscn`, `gelf_offscn` over a list of blocks of headers, with the loading of the table | The loops over blocks are the loop over the flattened list; induction on it |
| C134 | The state of a section that elf_getdata, elf_rawdata and elf_newdata share, and histories of these calls | Invariants by induction over the history; the walk as an inductive relation over elf_getdata calls; concrete histories for the violations |
| C135 | The six flag functions over the flag words of a file, and the decisions of updatemmap and updatefile what to write and which marks to clear | Bitwise invariant by induction over the history against a last-call-wins specification; section by section for the update; two updates in a row |
| C136 | dwfl_validate_address on top of the section search of C40, for a given module of the address | Through the invariants of the binary search (C40); case analysis for the other types |
| C137 | The loops of eu-size over section and program headers, with 64 bit sums and signed output | Induction over the headers and over the files against filtered sums |
| C138 | ebl_machine_flag_check with the hooks of all backends, ebl_machine_flag_name for any hook and buffer | Bit by bit against combinations of the constants of elf.h; induction over the digits |


## What is modelled and what is not

One row per component directory.  "Not modelled" lists what a reader might expect
to find; line-level simplifications are in the comments of the model files.

| component | modelled code | not modelled / assumed |
|-----------|---------------|------------------------|
| Leb128 | `get_uleb128`, `get_sleb128`, `asm_adduleb128`, `asm_addsleb128` encoders | - |
| Mem | readers of libdw/memory-access.h for both hosts and file orders | - |
| Hash | `elf_hash`, `elf_gnu_hash`, `crc32`, `crc32_file` | mmap and pread are arbitrary functions |
| Prime | lib/next_prime.c | seeds above 2^63 |
| DynHash | lib/dynamicsizehash.c, with resize | the ITERATE/REVERSE variants, threads |
| Strtab | libdwelf/dwelf_strtab.c | memory-block arithmetic of `newstring`, allocation failure |
| Note | `gelf_getnote` and the loop of its callers | locks |
| Xlate | `elf{32,64}_xlateto{m,f}`, record tables, version, note, gnuhash, chdr conversions, fsize | - |
| Scn | section block list: `elf_newscn`, `elf_getscn`, `elf_nextscn`, `elf_ndxscn`, `elf_getshdrnum` | locks |
| Layout | `__elfNN_updatenull_wrlock` without ELF_F_LAYOUT | ELF_F_LAYOUT mode |
| Write | `__elfNN_updatefile` | failing system calls and allocations; archive members (`start_offset` is 0) |
| Open | `file_read_elf`, `get_shnum`, program/section header loading | locks, allocation failure; hosts that need alignment |
| Data | `elf_getdata_rawchunk`, `elf_strptr`, `validate_str` | conversion of typed section data is in Xlate |
| Ar | archive member iteration, long names, `elf_rand`, `elf_getarsym` | `/SYM64/` index in eu-ar |
| Enc | `read_encoded_value`, `encoded_value_size` | - |
| Cfi | `execute_cfi`, `dwarf_frame_cfa`, `dwarf_frame_register` | parsing of expression blocks; allocation succeeds |
| NextCfi | `dwarf_next_cfi` | - |
| Aranges | `dwarf_getaranges`, `dwarf_getarange_addr` | lookup of the unit of a set |
| Line | `read_srclines` for versions 2-4, `dwarf_getsrc_die` | directory and file tables of version 5 (a parameter), allocation failure; `line` is unbounded |
| Form | `__libdw_form_val_len`, `__libdw_form_val_compute_len` | stack use of nested indirect forms |
| Abbrev | `__libdw_getabbrev`, `dwarf_getabbrev`, `dwarf_getabbrevattr`, `dwarf_getattrcnt`, abbreviation hash | - |
| Die | `dwarf_child`, `dwarf_siblingof`, `dwarf_attr`, `dwarf_hasattr`, `dwarf_getattrs`, `dwarf_formref` | cross-file references |
| Units | `__libdw_next_unit`, `__libdw_intern_next_unit`, `dwarf_offdie`, `dwarf_get_units` | relocation of headers, guess of the unit type from the root DIE, hash of signatures, split partners |
| Alloc | `libdw_alloc`, `__libdw_allocate` | `malloc` is an input (addresses of the blocks); concurrent callers |
| Fde | `.eh_frame_hdr` parsing and search, `__libdw_find_fde`, FDE/CIE caches | `tsearch`/`tfind` are arbitrary functions assumed to meet `TreeOk` |
| Segment | `dwfl_report_segment`, `dwfl_addrsegment`, `dwfl_addrmodule` | allocation failure |
| Expr | `expr_eval` | side effects of the memory and register callbacks; stack memory leaked by `DW_OP_GNU_encoded_addr` |
| Reloc | `find_section`, `cache_sections` of libdwfl/derelocate.c | relocation sections; reading headers and names succeeds; `qsort` is assumed to sort |
| Addrsym | `__libdwfl_addrsym` | reading the symbol table succeeds; local symbols come first |
| Report | `dwfl_report_begin/module/end` | contents of the modules; pointers of freed modules are not reused |
| Asm | `asm_addint*`, `asm_add{u,s}leb128`, `asm_addstrz`, `asm_align`, `asm_fill`, output of `asm_end`, subsections, symbol order | textual output, concurrent callers, alignment of the parent of a subsection |
| Lists | `dwarf_ranges`, `dwarf_getlocations`, `dwarf_getlocation_addr` on lists, list bases, `__libdw_addrx` | contents of expressions (`__libdw_intern_expression` is a parameter), units whose lists are in the skeleton's file |
| Compress | `elf_compress`, `elf_compress_gnu`, cached contents | zlib itself (`Codec` with the laws `Good`; `toy` shows that they can be met), allocation failure |
| Gelf | `gelf_get*`/`gelf_update*` record access | locks, dirty flags; alignment of d_buf is assumed |
| Strings | src/strings.c: `process_chunk`, `process_chunk_mb` (first chunk), `read_block` inside the mapping, `read_block_no_mmap` | formatting, remapping of files larger than the address space, options, the walk over sections |
| Arlib | src/arlib.c, src/arlib2.c, eu-ranlib, eu-ar `d`, `q`, `r` without position | symbols of a member (a parameter), `ar m`, `ar x`, `ar t`, positions, instance counts, opening of the files; temporary file and rename succeed |
| Attrval | libdw/dwarf_formudata.c, dwarf_formsdata.c, dwarf_formaddr.c, dwarf_formblock.c, dwarf_formflag.c, dwarf_formstring.c | range offsets of GNU split units; how the bases of the tables are found |
| Scopes | libdw/dwarf_getscopes.c, dwarf_getscopes_die.c, libdw_visit_scopes.c | memory allocation; `dwarf_haspc` and the reading of references are parameters |
| Pc | libdw/dwarf_lowpc.c, dwarf_highpc.c, dwarf_entrypc.c, dwarf_haspc.c | split units and their ranges base |
| Types | libdw/dwarf_aggregate_size.c, dwarf_attr_integrate.c, dwarf_peel_type.c, dwarf_default_lower_bound.c | split units; reading of attributes is a parameter (see Attrval, Ref) |
| Ref | libdw/dwarf_formref_die.c, the signature table in libdw/libdw_findcu.c | reading of unit headers (see Units); the table is a map (see DynHash) |
| Macro | libdw/dwarf_getmacros.c, dwarf_macro_param1.c, dwarf_macro_param2.c, choice of the line table in dwarf_macro_getsrcfiles.c | reading of the line table (see Lines); the cache is a list (see DynHash) |
| Handle | libelf/elf_begin.c (`elf_begin`, `dup_elf`, `read_file`, `write_file`), elf_end.c, elf_clone.c, elf_memory.c, elf_readall.c, elf_rawfile.c, elf_cntl.c | contents of files (a parameter; see Open, Ar); headers, sections and data that elf_end frees; offsets that set_address changes; failing allocations; with locks only their effect in one thread |
| Intern | libdw/dwarf_getlocation.c:41-682 (`attr_ok`, `store_implicit_value`, `check_constant_offset`, `__libdw_intern_expression`, `dwarf_getlocation`, `dwarf_getlocation_implicit_value`), libdw/libdwP.h (`READ_AND_RELOCATE`) | entries that a failing call leaves in the tree of blocks; failing allocations; the fake locations of `DW_TAG` constants in dwarf_getlocation_addr (see Lists) |
| Unwind | libdwfl/frame_unwind.c:46-90,510-772, libdwfl/dwfl_frame.c:38-109,409-477, libdwfl/dwfl_frame_pc.c, libdwfl/dwfl_frame_regs.c, libdw/dwarf_frame_register.c, libdw/dwarf_frame_cfa.c, backends/{x86_64,i386,aarch64,ppc64}_unwind.c and their register tables | failing allocations; callbacks with side effects on the process; `dwfl_getthreads` and the attaching to a process; how modules and their call frame information are found (a function here; see Report, NextCfi, Fde); s390 and sparc |
| Relocate | libdwfl/relocate.c:40-92,111-199,207-729, backends/{x86_64,i386,aarch64,ppc64,riscv}_symbol.c (relocation types) | compressed sections; failing allocations; how symbol tables are found and read (a table here); `__libdwfl_relocate` over all sections; name comparisons for debugging sections; the other backends; `partial` = false, which no caller uses |
| Pubnames | libdw/dwarf_getpubnames.c, libdw/libdwP.h (`__libdw_read_offset`) | failing allocations; the sets are computed in each call rather than kept |
| Mmap | libelf/elf32_updatefile.c:52-465 (`__elfNN_updatemmap`), libelf/elf_update.c:43-117 (the mapping) | conversion to another byte order (buffers hold the bytes of the file); failing system calls and allocations; archive members; the flags after the update |
| Debuglink | libdwelf/dwelf_elf_gnu_debuglink.c, dwelf_dwarf_gnu_debugaltlink.c, dwelf_elf_gnu_build_id.c, dwelf_scn_gnu_compressed_size.c, libdwfl/find-debuginfo.c, dwfl_build_id_find_debuginfo.c, dwfl_build_id_find_elf.c:40-138 | failing allocations; the address of the build ID; what __libdw_open_file makes of a file (a parameter); a file system that changes during the search; dwfl_build_id_find_elf itself |
| Modcu | libdwfl/cu.c, dwfl_module_nextcu.c, dwfl_module_addrdie.c, dwfl_module_getsrc.c, lines.c | failing allocations; getting the DWARF of the module; the tree of offsets is a list of entries with unique offsets; `.debug_aranges` is given as its sorted table (C37); the line tables are given as rows (C09, C10) |
| Srcfile | libdw/dwarf_getsrc_file.c, libdwfl/dwfl_module_getsrc_file.c | units and line tables are given as what dwarf_nextcu, dwarf_offdie and dwarf_getsrclines return; comparison of a signed column with an unsigned bit field of the C structure is taken in the integers |
| Linetab | libdw/dwarf_getsrclines.c:295-637 (tables of version 5) | failing allocations; counting entries with `unsigned int`; the MD5 sum, which the code skips |
| Symtab | libdwfl/dwfl_module_getsym.c, dwfl_module_getdwarf.c:600-661, 925-1295, 1469-1507 | reading and decompressing sections, find_dynsym, the backend and relocation (parameters); failing allocations; tables with 2^31 and more symbols; reserved section indices passed to elf_getscn |
| Dynsym | libdwfl/dwfl_module_getdwarf.c:664-906 | elf_getdata_rawchunk (its result on readable ranges), gelf_getphdr and the number of program headers; alignment; 32-bit hosts; failing allocations |
| Core | libdwfl/core-file.c:241-400, libdwfl/linux-core-attach.c:58-96 | cleanup calls and release of buffers; reading from the descriptor fails only at its end; failing allocations; gelf_getphdr (its results) |
| Corethr | libdwfl/linux-core-attach.c:98-439, libdwfl/dwfl_frame.c:255-407, backends/linux-core-note.c, backends/x86_64_corenote.c | choosing the PT_NOTE segment and reading it; opening the backend; dwfl_attach_state; extra notes; tables of other backends (parameters); allocation |
| Maps | `libdwfl/linux-proc-maps.c` (`proc_maps_report`, `report`) | `grovel_auxv`, opening `/proc`, `getline` failing, `strdup` failing; `dwfl_report_module` always succeeds (see Report) |
| Auxv | `libdwfl/linux-proc-maps.c` (`grovel_auxv`, `get_pid_class`, `dwfl_linux_proc_report`) | failing reads and allocations; big-endian hosts |
| Offline | libdwfl/dwfl_report_elf.c (`__libdwfl_elf_address_range`), libdwfl/offline.c (`process_elf`), libdwfl/dwfl_begin.c | reading the headers; `dwfl_report_module` on modules seen before (Report); archives are sequences of members; file descriptors |
| Funcs | libdw/dwarf_getfuncs.c | the walk is that of Scopes; callbacks that change the file |
| Bkpt | libdw/dwarf_entry_breakpoints.c, `dwarf_getsrclines` as far as errors are concerned | memory; reading lines, ranges and attributes (Linetab, Pc, Attrval) |
| Scopevar | libdw/dwarf_getscopevar.c | reading DIEs and the file table (Die, Srcfile); negative arguments |
| Retval | backends/x86_64_retval.c, backends/libebl_CPU.h:58-74 | classification of the members of structures; other backends |
| Nlist | libelf/nlist.c, lib/fixedsizehash.h | opening and reading files, symbols and strings (parameters); allocation |
| Checksum | libelf/elf32_checksum.c, gelf_checksum.c, elf-knowledge.h, elf_rawdata.c, elf_getdata.c (lists) | locks; conversions (Xlate, parameters); compressed data |
| Linkmap | libdwfl/link_map.c (report_r_debug) | the path without r_debug_info (no caller), allocation failure, integrated_memory_callback (a parameter) |
| Rdebug | libdwfl/link_map.c (auxv_format_probe, dwfl_link_map_report) | executable given for the core file, consider_executable and find_executable (a parameter) |
| Errno | libelf/elf_error.c, libdw/dwarf_error.c, libdwfl/dwfl_error.c, libasm/asm_error.c | the texts of the messages, libasm print buffers |
| Strip | src/strip.c (handle_elf: sections), libebl/eblsectionstripp.c, SECTION_STRIP_P | symbol tables, relocations and other contents, offsets, writing, the debug link, option parsing, archives |
| Stripsym | src/strip.c (handle_elf: symbols) | extended section numbers (refused by the code), reading and writing entries as bytes (Gelf), names (a parameter), the debug file |
| Remote | libdwfl/elf-from-memory.c | failing small allocations; `elf_memory` on the image (Open, Handle); page sizes that are no power of two |
| Filenote | libdwfl/dwfl_segment_report_module.c:84-201 | a NULL note; the rest of that file |
| Segrep | libdwfl/dwfl_segment_report_module.c:553-643, 897-963 | reading the headers, the dynamic section and the name, the link map correction, `read_eagerly` |
| Buildnote | libdwfl/dwfl_segment_report_module.c:297-327, 454-532; libdwfl/linux-kernel-modules.c:534-667 | translation of notes of the other byte order, failing allocations, `vaddr` of kernel notes |
| Unzip | libdwfl/gzip.c, libdwfl/image-header.c, libdwfl/open.c | The libraries themselves, errors of reading, `dup` and `lseek`, 32-bit counters of libbz2, the handle that stands for the payload of an image |
| Dwbegin | libdw/dwarf_begin_elf.c | Allocation, the units that stand for location and address sections, the directory of the file; decompression is a given result |
| Nextlines | libdw/dwarf_next_lines.c | Decoding of the tables (see Line, Linetab); errors of the walk over units |
| Getmods | libdwfl/dwfl_getmodules.c; back pointers in libdwfl/segment.c | dwfl == NULL; modules marked for removal; failing allocations; overflow of the shifted offset |
| Declfile | libdw/dwarf_getsrcfiles.c, libdw/dwarf_decl_file.c, libdw/dwarf_getsrclines.c:1095-1222 | read_srclines (see Line, Linetab); is_cudie; failing allocations; dwarf_next_lines and dwarf_macro_getsrcfiles, which use the same tree |
| Altsplit | libdw/dwarf_getalt.c, libdw/dwarf_setalt.c, libdw/libdw_find_split_unit.c | failing memory allocation; reading the link section and the units; relations between units of several files kept in trees |
| Phdr | libelf/elf32_newehdr.c, libelf/elf32_newphdr.c, libelf/elf32_getphdr.c, libelf/elf_getphdrnum.c, libelf/gelf_getphdr.c, libelf/gelf_update_phdr.c | gelf_update_ehdr (e_phnum and e_phoff changed directly); failing allocations and reads; elf_update in between; read-only mappings |
| Objnote | libebl/eblobjnote.c | functions of the machines; the text around the values; failing allocations |
| Pidattach | libdwfl/linux-pid-attach.c, libdwfl/dwfl_frame.c | the parsing of /proc/PID/status; opening of the files in dwfl_linux_proc_attach; failing allocations and readdir; big-endian and 32-bit hosts |
| Disasm | libcpu/bpf_disasm.c, libasm/disasm_cb.c, libasm/disasm_str.c | blanks in texts, `read_symtab` (no effect), the x86 disassembler |
| Locdie | libdw/dwarf_getlocation_{die,attr,implicit_pointer}.c, parts of dwarf_offdie.c, dwarf_formaddr.c, dwarf_formudata.c | `dwarf_attr` and the reading of units (parameters here; see Die and Units), `__libdw_cu_addr_base` |
| Attach | libdwfl/linux-pid-attach.c (`dwfl_linux_proc_attach`, `pid_detach`), dwfl_frame.c (attaching, `dwfl_pid`), dwfl_end.c, dwfl_module.c (reports) | the threads (see Pidattach, Corethr), the memory cache, what modules own besides their backend, `user_core` |
| Regs | backends/*_regs.c, libebl/eblreginfo.c, libdwfl/dwfl_module_register_names.c | `default_register_info`, what is stored when no name is returned, opening the backend |
| Names | libebl/ebl{segmenttype,sectiontype,dynamictag,symboltype,symbolbinding,osabi,section}name.c, hooks in backends/*_symbol.c | translation of messages; relocation, note and flag names |
| Offscn | libelf/elf32_offscn.c, elf64_offscn.c, gelf_offscn.c, `load_shdr_wrlock` of elf32_getshdr.c (which headers go where) | locks; conversion of the table; out of memory |
| Datalist | libelf/elf_newdata.c, elf_getdata.c (lists and states), elf_rawdata.c | bytes and their conversion, locks, out of memory |
| Flags | libelf/elf_flag{elf,ehdr,phdr,scn,shdr,data}.c, elf32_updatefile.c (what is written, which marks are cleared) | bytes and places written, order of sections, gaps, failing writes, the layout step before |
| Validate | libdwfl/dwfl_validate_address.c, `dwfl_module_relocate_address` | which module the address is in (C38, C60), why `check_module` fails |
| Size | src/size.c (numbers shown) | the text of the output, options, archives, reading files |
| EFlags | libebl/eblmachineflag{check,name}.c, machine_flag_check of all backends | text of the messages of eu-elflint and eu-readelf |
| Sys | `pwrite_retry`, `write_retry`, `pread_retry` | the kernel (an arbitrary schedule) |

Not modelled at all: the command line tools in src/ other than strings, ranlib and ar, libcpu and backends, libebl
dispatch, name demangling, attaching to processes and core files.


## Where the code does not have the property

Each item is a proved theorem, described by the comment beside it.  What each
`_partial` theorem covers and leaves out is in the notes of MANIFEST.json: the
partial theorems may leave out more than the cases refuted here.

* `Leb128.C02_sleb_violation`: **C02 fails as stated.** The property asks for every 64-bit signed value; a value that needs ten bytes, such as -2^63, is not read back: the reader gives up after nine bytes with `INT64_MAX` and leaves the position in the middle of the number.
* `Leb128.C04_sleb_violation`: **C04 fails as stated**: 64 is written as the single byte 0x40, which reads as -64.
* `Mem.C05_three_inc_violation`: **C05 fails for the advancing three-byte reader** used for three-byte string and address indices: it drops the third byte. 00 00 01 in little-endian order denotes 65536 and is read as zero.
* `DynHash.C10_alloc_failure_violation`: **C10 does not survive memory exhaustion.** When `calloc` fails in a resize the table keeps its old allocation but the enlarged size, and the next search reads outside it.
* `Maps.C100_inode_violation`: **C100, violation: large inode numbers.** They are read as signed numbers, the largest of which stands for all from 2^63 on (some file systems use the upper bits). Two different files with such numbers that follow each other are taken for one file under two names, and reporting fails with -1, without the modules.
* `Maps.C100_names_violation`: **C100, violation: two names of one file.** A file that is mapped under two names (hard links, or a file that was renamed and linked again) with no mapping of another file between makes reporting fail with -1; the modules of all mappings after it are lost.
* `Auxv.C101_again_violation`: **C101, violation: reporting again.** For every 64-bit process without a vDSO, whatever its executable: a second `dwfl_linux_proc_report` with the same `Dwfl` sees the page size it knows in the 64-bit vector, and 0 in the same vector read as a 32-bit one, so that it believes the latter and forgets the page size.
* `Auxv.C101_unreadable_violation`: **C101, violation: an executable that cannot be read.** A 64-bit process with a vDSO and a known page size, whose executable cannot be opened: the report fails with `ENOEXEC`, although the first report with the same files succeeded.
* `Offline.C102_align_violation`: **C102, violation: large alignments.** An object file with a section aligned to 2 MiB is placed more than 64 KiB above the next free address, which is then not moved; the file reported after it is placed below it and overlaps it.
* `Offline.C102_prelink_violation`: **C102, violation: libraries linked at an address.** Two libraries whose first segment has an address beyond 64 KiB (prelinked, or with a chosen text segment) are given the same base, and lie over each other.
* `Offline.C102_exec_violation`: **C102, violation: programs.** A program at its fixed address does not change the next free address when it is further away, and the files reported after it can reach it: here an object file of 4 MiB.
* `Offline.C102_noalign_violation`: **C102, violation: a segment without alignment.** An alignment of 0 means none, as 1 does; but the address of a first segment with alignment 0 is taken for 0, and the module of the program starts there.
* `Offline.C102_lower_violation`: **C102, violation: a section below the first.** When a section that is not the first has the lowest address, the bias is changed to it, without regard to the alignment of the sections before: here one aligned to 4 KiB ends up at 0x10ff0.
* `Funcs.C103_twice_violation`: **C103, violation: resuming.** The place to resume is the address of a function; when a unit is imported twice its functions are met twice, and the walk resumes at the first of them. A callback that stops at every function is called with the same function for ever: however often the program resumes, it does not come to an end.
* `Funcs.C103_union_violation`: **C103, violation: all functions.** The callback should be called for all functions that are defined in the tree of the unit; functions in DIEs that the walk does not enter, such as unions, are left out.
* `Bkpt.C104_first_violation`: **C104, violation: marks.** The marks are searched up to the upper bound that the binary search ended with, not up to the end of the function. For every unit: if the rows of a function are the first ones, and its first row is not marked, its marks are never found; the result is the same as without marks: the next row, though that may still be in the prologue.
* `Bkpt.C104_same_violation`: **C104, violation: several rows.** When several rows have the address of the start, the search may end at any of them: here it ends after the marked one, and the breakpoint is at the next row.
* `Bkpt.C104_norow_violation`: **C104, violation: no row.** When no row starts with the function, as in a part of a function that was moved away without changing lines, the result is an error, though the entry of the function is known and there may be marks in it.
* `Bkpt.C104_stale_violation`: **C104, violation: earlier errors.** Whether a unit has no line table is found out from the last error. An error that some other function left makes `dwarf_entry_breakpoints` fail for every unit without line table, though the entry is known.
* `Bkpt.C104_again_violation`: **C104, violation: the second time.** That the line table could not be read is reported once: after `dwarf_errno` was called, the second call takes the unit for one without line table, and returns the entry.
* `Scopevar.C105_directory_violation`: **C105, violation: directories.** The comparison should accept a file whose path ends with the given name; but it compares the beginning of the path. For every file in a directory, unless its path also begins with the given name: the variable that is declared there is not found.
* `Scopevar.C105_prefix_violation`: **C105, violation: other files.** A path that begins with the given name, and has a slash at the right place, is accepted: `abc/xyz` for `abc`.
* `Scopevar.C105_second_violation`: **C105, violation: the second variable.** When a scope has two variables with the name, as a declaration and the definition of a global one, only the first is compared: asking for the line of the second finds nothing.
* `Scopevar.C105_empty_violation`: **C105, violation: empty scopes.** For every scope whose abbreviation says that it may have children, but that has none: the result is an error, whatever the scopes around it contain.
* `Retval.C106_complex_violation`: **C106, violation: complex numbers.** Every function that returns `_Complex double` or `_Complex long double`: the location is wrong. The pieces have the sizes of registers (16, or 10 for x87) instead of those of the parts (8, or 16).
* `Retval.C106_float128_violation`: **C106, violation: `__float128`.** It is returned in `xmm0`; the location is that of `long double`, `st(0)`, as the size and the encoding are the same.
* `Retval.C106_sse_violation`: **C106, violation: structures with floating point members.** Every function that returns a structure, class or union of 1 to 16 bytes with an eightbyte of class SSE, such as two `double`s: the location is in the general registers instead of `xmm0` or `xmm1`.
* `Retval.C106_complexfloat_violation`: **C106, violation: `_Complex float`.** It takes 8 bytes, all of them in `xmm0`; the location has a second piece, and describes 32 bytes.
* `Retval.C106_reference_violation`: **C106, violation: references.** Every function that returns a reference or an rvalue reference, which are returned like pointers: the result is that the type is not understood.
* `Retval.C106_typedef_violation`: **C106, violation: void with modifiers.** A function whose type is a typedef of `void`, or `const void`, returns nothing; but the result is -1, unlike for a function without type.
* `Retval.C106_member_violation`: **C106, violation: pointers to member functions.** They take 16 bytes, in `rax` and `rdx`; without `DW_AT_byte_size`, the location is `rax` alone.
* `Nlist.C107_lost_violation`: **C107, violation: lost symbols.** For every name whose hash is 0, such as `Hxyiinp`: a file whose only symbol has that name; `nlist` does not find it, because a slot with hash 0 counts as free.
* `Nlist.C107_crash_violation`: **C107, violation: crashes.** For every name whose hash is 0: the name is looked for in a file with one symbol whose hash is a multiple of 11, such as `M`. The search compares the name with the NULL of a free slot.
* `Checksum.C108_changed_violation`: **C108, violation: changes.** The comment in the code says that data which the user added is found after the raw data. It is not: for every section of a file that was opened, whatever its list of data is now, only what the file had is used.
* `Checksum.C108_unreadable_violation`: **C108, violation: unreadable sections.** A permanent section that is not in the file, as when the file was truncated, is left out without an error.
* `Checksum.C108_gap_violation`: **C108, violation: gaps.** A section that the program makes of two blocks, the second aligned to 4: the checksum is not that of the contents that will be written, which has the padding.
* `Linkmap.C109_truncated_violation`: The list of modules may be cut off: of every chain that has at least as many elements as there are segment boundaries, only the first elements are reported, and nothing says so.
* `Linkmap.C109_leak_violation`: The file descriptor is lost: for every chain whose first element has a dynamic segment, and every executable given by the user that has none (a static one), the entry of the first element has a descriptor that is neither closed nor kept.
* `Linkmap.C109_wrap_violation`: Memory is read outside the buffer: if `struct r_debug` lies in the first bytes of the address space and names the end of the address space as the first element, the sum in the check of the buffer wraps around and the element is read far in front of the buffer.
* `Rdebug.C110_format_violation`: The format is guessed wrongly: the vector of every 64-bit little-endian process that has the value 0x2000000004, which may be an address, before AT_PHENT is taken for that of a 32-bit process.
* `Rdebug.C110_division_violation`: Division by zero: for every 64-bit vector with a valid AT_PHENT that is followed by an AT_PHENT of 0, as a damaged core file may have it, if the memory at AT_PHDR can be read.
* `Rdebug.C110_overrun_violation`: Memory is read beyond the buffer: with a later AT_PHENT of 1 and 56 as AT_PHNUM, a buffer for one program header is allocated and 56 are read from it (the first is not what is looked for).
* `Errno.C111_null_violation`: A failure that libdwfl attributes to libelf when libelf has no error pending has no message: the answer for -1 is NULL although a string is promised.
* `Errno.C111_forgotten_violation`: Asking libdwfl for the latest message forgets the error: the second answer is "no error"; libelf and libdw keep it.
* `Errno.C111_stale_violation`: The message that libdwfl gives for a number fetched before changes with later errors of libelf when the failure was attributed to libelf without one.
* `Errno.C111_asm_table_violation`: `asm_errmsg` reads outside its table for every number from 11 on, whatever happened before.
* `Errno.C111_asm_zero_violation`: `asm_errmsg (0)` gives "no error" after every failure, instead of its message.
* `Strip.C112_before_violation`: A section can stay without its relocations, although the code means to keep them: a relocation section that comes before its target, where the target stays only because another section refers to it, was looked at before, and no further pass is made since the reference goes to a section that is still to come.
* `Strip.C112_group_before_violation`: A member of a group can stay (with SHF_GROUP set) although its group is removed.
* `Strip.C112_group_violation`: A group that stays has the number 0 in place of a member that was removed, which is no section.
* `Strip.C112_extended_violation`: A file is refused as ill-formed if a symbol table with extended section numbers stays: an assertion compares the type of the symbol table with the type of the section with the numbers. Without that section the same file is stripped.
* `Strip.C112_debug_violation`: A removed section in the debug file can refer to a section that has no contents there.
* `Strip.C112_keep_group_violation`: A group is removed when it has lost its members, even if the user asked to keep it.
* `Strip.C112_loaded_debug_violation`: With -g a section that is loaded is removed if it has the name of debug information: only the name counts.
* `Stripsym.C113_info_violation`: If only local symbols stay, `sh_info` is not changed although the table has become shorter: it then is larger than the number of symbols.
* `Stripsym.C113_info_loaded_violation`: In a loaded table a global symbol that becomes undefined is not counted: `sh_info` is the number of the next global symbol, or unchanged.
* `Stripsym.C113_lost_reloc_violation`: A relocation of a symbol that goes refers to no symbol afterwards, without any message: with -g or --remove-section, a relocation in a section that stays silently changes its meaning.
* `Stripsym.C113_reserved_violation`: With more than 65521 sections the number of absolute symbols (0xfff1) is taken for the number of a section, and the symbol is moved there.
* `Stripsym.C113_hash64_violation`: For tables of 64-bit words the size of the symbol table is checked instead of that of the hash table: of every hash table of one word the second is read.
* `Remote.C114_order_violation`: Violation of C114 in the code: the size of the image is computed from the program header that comes last, not from the largest. With a segment that lies behind the last one in the file, the callback is asked to write almost 2^64 bytes behind the end of the buffer.
* `Remote.C114_noload_violation`: Violation of C114 in the code: without a loadable segment the buffer has no bytes, and the file header is written behind its end.
* `Remote.C114_small_violation`: Violation of C114 in the code: if the segments end before the end of the file header, that is written beyond the end of the buffer.
* `Remote.C114_wrap_violation`: Violation of C114 in the code: the end of the program headers is computed modulo 2^64; with an offset near 2^64 they are taken from before the start of the buffer.
* `Remote.C114_product_violation`: Violation of C114 in the code: number and size of the section headers are multiplied as `int`; the product overflows for values that a header can hold.
* `Remote.C114_short_violation`: Violation of C114 in the code: the callback is asked for at least 52 bytes, the size of a 32-bit header. If it delivers that many, as it may, and the header is that of a 64-bit file, twelve bytes of the buffer are used that were never set.
* `Remote.C114_empty_violation`: Violation of C114 in the code: a loadable segment without contents in the file, at the start of a page (as for `.bss`), makes the callback read nothing; its answer 0 is taken as an error, and a file that is completely in memory cannot be rebuilt.
* `Remote.C114_hole_violation`: Violation of C114 in the code: the section header table is taken to be in the image when it ends before the end of the image. A table between two segments, which is not in memory, is still named by the header of the image; its entries are zeros there.
* `Segrep.C116_sections_violation`: When the last segment's page has the section headers, they are counted in the size of the image, but `read_phdr` reads only `p_filesz` bytes of each segment: unless the file happens to be contiguous at its own addresses (so for every position independent file), the section headers are zeros in the image, although they are in memory.
* `Segrep.C116_contiguous_violation`: Whether the file is contiguous in memory is judged by addresses without the bias (`filesz_vaddr - start`), and only for the last segment: the image of this file is taken from the wrong place, although all segments can be read.
* `Segrep.C116_bias_violation`: The bias takes the first byte of the segment that holds the headers to the address of the header, also when the segment begins behind it in the page: the header of this file is at the address where its page begins, its only segment asks for the address where it is, but the bias is not zero, and the module begins 64 bytes too low.
* `Segrep.C116_wrap_violation`: The end of a segment in the file wraps: its offset is near 2^64, so the image is a few pages long and the segment is written outside the buffer.
* `Buildnote.C117_hang_violation`: A note with a name of 0xfffffff4 bytes: the end of the name wraps to 0 when it is aligned, because the mask has 32 bits only, and the loop begins again at the same note, for ever. Sixteen bytes in a core file are enough.
* `Buildnote.C117_beyond_violation`: When the notes are not in the first buffer, all that the callback delivers is searched, beyond the end of the segment: here the segment's only note is no build ID, but one is found in the bytes that follow it in memory.
* `Buildnote.C118_second_violation`: After the first note the name is looked for in the wrong place: `p += len` adds the offset that `p` has already. With one other note in front the build ID is not found if more notes follow.
* `Buildnote.C118_name_violation`: In the same way, memory behind the notes is read when the build ID is the last note.
* `Buildnote.C118_short_violation`: The loop does not check that a header is complete: behind the last note, or in a file that is too short, bytes that were never read are taken for one.
* `Buildnote.C118_files_violation`: The search in the files of a module ends with the first file that has notes, with a build ID or without.
* `Unzip.C119_endless_violation`: A bzip2 file that is cut off is never given up: the decompressor asks for more input, is called again without any, and says the same. The reading never ends, mapped or not.
* `Unzip.C119_short_violation`: When memory runs short the contents are cut off without an error: the buffer is not enlarged at all, there is no room to read into, and reading nothing looks like the end.
* `Unzip.C119_large_violation`: A gzip file with more than 1 GiB in it cannot be opened: the room for the rest is more than `gzread` can be asked for.
* `Unzip.C119_leak_violation`: A file that cannot be mapped and is not compressed costs three buffers of 1 MiB, one for each kind of compression: they are neither freed nor handed on.
* `Dwbegin.C120_group_violation`: Opening the debugging information of a section group reads one word behind the group's data, for every group whose flag word is there and whose members exist and can be read.
* `Dwbegin.C120_mixed_violation`: In an object file that has the sections of the skeleton and those for the .dwo file, whichever comes first is taken for each kind by itself, so that the units of one are read with the abbreviations of the other.
* `Nextlines.C121_own_violation`: A caller who gives the unit that owns the table does not get it back: the search begins behind it and later ends before it.
* `Nextlines.C121_split_violation`: For the table of a .dwo file a unit is found only if the caller gives none or one before it: the second search does not look for split units.
* `Getmods.C122_order_violation`: **C122** fails when segments were reported and a module is not in ascending order of addresses: entering the last module moves the entries of the others, but their places are not corrected, since the condition for that is met only when nothing above was moved. The session has the modules 0, 1, 2; a caller that stops at module 0 is led on to module 2 and never sees module 1.
* `Getmods.C122_overlap_violation`: **C122** fails for a module whose addresses are all in later modules too: its place leads to nothing of its own. A caller that stops at module 0 is led on to module 2 and never sees module 1.
* `Getmods.C122_discard_violation`: **C122** fails when a call goes on from a value got while there was a table, and its callback discards the table: the value returned counts from the place in the table instead of the place in the list. Here the caller has seen 0 and 1, is sent on behind the end and never sees module 2.
* `Declfile.C123_split_violation`: **C123** fails for every split unit whose lines are found in the skeleton: unless `dwarf_getsrcfiles` was called for the unit before and succeeded, an assertion in `dwarf_decl_file` fails for each declaration with a file number, and the program is aborted.
* `Declfile.C123_foreign_violation`: **C123** fails for an attribute found in a DIE of another unit, through DW_AT_abstract_origin or DW_AT_specification: the number is looked up in the files of the unit that was asked, here `a/x` instead of `b/y`.
* `Declfile.C123_skeleton_violation`: **C123** fails for a split unit with a file table of its own if the skeleton has no lines: the name is there, but `dwarf_decl_file` fails.
* `Declfile.C123_history_violation`: **C123** fails when units share a line table but not the directory, as type units do, which have none: the names that a unit gets depend on which of the units was asked first, here `a/x` or `/x`.
* `Altsplit.C124_buildid_violation`: **C124** fails for the identity of the alternate file: a file whose build ID is not that of the link is used.
* `Altsplit.C124_setalt_violation`: **C124** fails when the file that was found is set again: the handle is released and kept, so what `dwarf_getalt` returns from then on has been released.
* `Phdr.C125_nohdr_violation`: **C125** fails for a handle without an ELF header: `elf_getphdrnum` uses the header that is not there.
* `Phdr.C125_class_violation`: **C125** fails for calls before the ELF header is created: `gelf_getphdr` fails, but makes the file a 64-bit one, and a 32-bit ELF header cannot be created any more.
* `Phdr.C125_other_violation`: **C125** fails for the function of the other class: once the program headers of a 64-bit file are loaded `elf32_getphdr` returns them as if they were 32-bit ones; before that it fails.
* `Phdr.C125_remove_violation`: **C125** fails for removing program headers that have not been loaded: nothing happens.
* `Phdr.C125_zeroth_violation`: **C125** fails for removing loaded program headers of a file with sections whose headers have not been read: the header of section zero, which is not there, is written to.
* `Phdr.C125_mapped_violation`: **C125** fails for mapped files: a table of another size is made with `realloc` from the mapped memory.
* `Phdr.C125_entsize_violation`: **C125** fails for files with an unusual `e_phentsize`: a new table of the same size runs into an assertion.
* `Phdr.C125_negative_violation`: **C125** fails for negative numbers: `gelf_update_phdr` writes in front of the table.
* `Phdr.C125_small_violation`: **C125** fails for files with 65535 in the ELF header and a smaller number in section zero: `gelf_update_phdr` writes behind the table.
* `Objnote.C126_overrun_violation`: The size of the data of a property is not compared with the size of the note: whatever a property of an unknown type or of a type for processors or applications says it has, that many bytes are read and printed, also behind the end of the note.
* `Objnote.C126_wrap_violation`: What is left of the note is computed without a comparison: after a property whose data would reach behind the end (here one without data to show, so that nothing has been read yet) the remainder wraps around, and the next property is read behind the end of the note.
* `Objnote.C126_stack32_violation`: In a 32-bit file a stack size of four bytes is converted into half of a variable of eight bytes: the number printed has an upper half that was never set.
* `Objnote.C126_stack64_violation`: In a 64-bit file a stack size of four bytes ends the output: properties that follow are not shown.
* `Objnote.C126_sdt_violation`: The search for the end of the arguments of a probe counts from the name: without a zero byte at the end bytes behind the note are read, for every such note.
* `Pidattach.C127_read32_violation`: With process_vm_readv, a read from a 32-bit process gives eight bytes instead of four: whenever the page can be read, the upper half of the result is the word that follows.
* `Pidattach.C127_wait_violation`: If waiting for the thread fails, for example because a signal interrupts it, PTRACE_DETACH comes too early: dwfl_getthread_frames fails, and the thread stays traced (and stops soon, for good).
* `Pidattach.C127_registers_violation`: If the backend cannot get the registers after the thread was attached, the thread is not detached: it stays stopped, and the next call for any thread fails an assertion.
* `Pidattach.C127_nested_violation`: Looking at the frames of a thread, also another one, from the callback for a frame fails an assertion.
* `Pidattach.C127_threads_violation`: The position in the directory is shared: if the callback for a thread goes over the threads itself, dwfl_getthreads ends with success after the first thread.
* `Disasm.C128_skip_violation`: C128 is violated: an instruction whose text the output function refuses (for lack of room, say) is lost. For every program and every instruction in it that is refused, the start pointer has been moved behind that instruction, so that a second call goes on with the next one.
* `Disasm.C128_far_violation`: C128 is violated: the target of a jump is cut to 32 bits. For every address and every jump whose target is 2^32 or more, another target is shown.
* `Disasm.C128_overflow_violation`: C128 is violated: `disasm_str` writes behind the end of the buffer. For every buffer, and any two instructions of which the first has room, the text of the second is not longer than that of the first, and both together have no room: after the first text, the room that is left is taken to be the length of that text (`buffer->len = len`, libasm/disasm_str.c:55).
* `Disasm.C128_room_violation`: C128 is violated: a text is refused although there is room for it. For every buffer with room for the texts of two instructions, the second longer than the first: only the first is stored, and more room is asked for.
* `Locdie.C129_xderef_violation`: C129 is violated: the type of `DW_OP_xderef_type` is looked for at its offset in the section, not in the unit. For every unit but the first, every offset in it, and every unit that has the same number as an offset in the section: an entry of that unit is found.
* `Locdie.C129_end_violation`: C129 is violated: the offset of the end of the unit is taken for that of an entry. For every unit with another one right behind it, and every operation with an offset in the unit as the first operand: the header of the next unit is given out as an entry.
* `Locdie.C129_types_violation`: C129 is violated: in a type unit, operands that are offsets in `.debug_info` are looked for in `.debug_types`. For every type unit, every operation with such an operand, and every type unit that contains the same offset: an entry of that type unit is found.
* `Locdie.C129_addr4_violation`: C129 is violated: addresses of four bytes from the table are read as eight bytes, because the unit made for the table has no address size. For every unit with such addresses, and every address that is followed by another one in the table: the address of the attribute is both of them together.
* `Locdie.C129_behind_violation`: C129 is violated: the number of an address is not checked. For every table, and every number of an address that begins in the last seven bytes of the table or at its end: the attribute is given out, and reading its address reads behind the end of the section.
* `Locdie.C129_before_violation`: C129 is violated: a large number of a constant leads in front of the table. For every table at a place in memory with at least `8 * k` bytes in front of it, the number 2^61 - k leads to a read of the memory in front of the section.
* `Attach.C130_freed_violation`: When the executable cannot be opened the process borrows the backend of a module. A new report that does not mention the module frees it with its backend, and the next use of the process (say, unwinding one of its threads) is a use after free: `dwfl_report_end` does not look at the process.
* `Attach.C130_stale_error_violation`: Two attempts that fail before `dwfl_attach_state` is reached: `dwfl_pid` reports the error of the first, though the second call returned another; only `dwfl_attach_state` resets the error.
* `Regs.C131_x86_64_violation`: x86-64 accepts a buffer of seven bytes, but "fs.base" and "gs.base" take eight: the terminator is written behind the buffer.
* `Regs.C131_i386_violation`: i386 accepts a buffer of six bytes, but "eflags" and "trapno" take seven.
* `Regs.C131_riscv_size_violation`: riscv does not look at the size of the buffer: every name that does not fit is written beyond it.
* `Regs.C131_riscv_range_violation`: riscv calls every number outside the table a gap instead of refusing it.
* `Regs.C131_arm_range_violation`: arm has the numbers 0 to 319, and calls 320 a gap instead of refusing it.
* `Regs.C131_bpf_length_violation`: bpf returns the length without the terminator.
* `Regs.C131_r10_violation`: bpf refuses r10, the frame pointer, whatever the buffer: MAX_BPF_REG is one too small.
* `Regs.C131_xf16_violation`: sh has the registers xf0 to xf15, and reports one more, xf16.
* `Regs.C131_twice_violation`: arm gives the registers 16 to 23 the same names as 96 to 103.
* `Regs.C131_float_violation`: ia64 describes f10 to f99 as signed integers of 64 bits, the other floating point registers as floats of 128.
* `Regs.C131_dot_violation`: Names shall have identifier characters only, but "fs.base" and "gs.base" on x86-64 have a dot.
* `Names.C132_binding_violation`: `ebl_symbol_binding_name` asks the hook for types of symbols: on ARM the binding 13 is called ARM_TFUNC, on SPARC SPARC_REGISTER, whatever the buffer.
* `Names.C132_encoding_violation`: The dynamic tag 31 is called ENCODING, a constant that is 32 in elf.h (and PREINIT_ARRAY is printed for it); 31 is no constant at all.
* `Names.C132_aeabi_violation`: ELFOSABI_ARM_AEABI (64) is a constant of elf.h (line 152), and its text is "<unknown>: 64".
* `Names.C132_handle_violation`: The type and the binding 10 cannot be named without a handle, although the functions accept that: the handle is used to look at the ABI.
* `Names.C132_section_handle_violation`: Unlike the other functions, the one for section types cannot be called without a handle.
* `Names.C132_negative_violation`: A negative type or binding of a symbol is looked up outside the table, unlike a negative segment type.
* `Names.C132_length_violation`: With a length of 0 the buffer comes back as it was: what is returned need not be a string.
* `Names.C132_escape_violation`: A symbol of a section from 0xff00 on, in a file of at most 65535 sections, is not shown with the name of the section: the escape value itself is compared with the number of sections.
* `Names.C132_escape_bound_violation`: In a file of more than 65535 sections the number behind the escape value is not compared with the number of sections: any other one is looked up outside the array.
* `Offscn.C133_error_violation`: When only sections without contents begin at the offset, the answer is right but the error code is set too: a caller that looks at `elf_errno` sees a failure.
* `Offscn.C133_added_violation`: A section added to a file opened for reading and writing, before any header was read: the headers are then read for all sections and stored in the first block, which has no room for them.
* `Offscn.C133_class_violation`: The functions for one class do not check the class once headers have been read: they are read as those of the other class.
* `Offscn.C133_null_violation`: Without a handle the functions for one class return NULL, the one for both is undefined.
* `Datalist.C134_lost_violation`: Asking for the raw data of a section without bytes in the file, such as .bss, and then adding a block: the section's own block, with its size, is gone. Without the question it is kept.
* `Datalist.C134_phantom_violation`: Looking for the first block of a section just made gives a block although none was added, and the block stays in front of those added later. Its version is 0, with which `elf_update` fails (libelf/elf32_updatenull.c:283-288).
* `Flags.C135_stale_violation`: A section marked with `elf_flagscn` stays marked after an update with write calls: its block is written again by the next update, and by each one after it. An update through a mapping takes the mark away.
* `Flags.C135_abort_violation`: `elf_flagscn` accepts the section with index 0, and then every update fails an assertion ("it should not be possible to mark this section as dirty").
* `Flags.C135_data_violation`: `elf_flagdata` is about the whole section: marking one block has the others written as well, and taking the mark from a block that `elf_newdata` has made changes nothing, it is still written.
* `Flags.C135_result_violation`: The result does not tell success from failure: clearing the last flag returns 0 without an error; and it has flags that are no business of the user, 0x100 here.
* `Validate.C136_limit_violation`: The limit of a module passes as second address, although it is the first address of the module that follows: the two addresses are in two modules, and asked from the other side the answer is -1.
* `Size.C137_oneline_violation`: In the SysV format on one line such a header is used all the same: NULL is dereferenced.
* `Size.C137_name_violation`: A loaded section whose name is not in the string table: NULL is given to printf for %s, in both SysV formats.
* `Size.C137_negative_violation`: Sizes are shown as signed numbers in decimal: a size of 2 ^ 63 or more is negative in the line of the file, while the line of the totals has it right.
* `EFlags.C138_default_violation`: EF_ALPHA_32BIT and EF_ALPHA_CANRELAX, EF_S390_HIGH_GPRS and EF_CPU32 are reported as invalid: these backends have no hook.
* `EFlags.C138_hal_violation`: EF_SPARC_HAL_R1 is reported as invalid, whatever else is set.
* `EFlags.C138_model_violation`: The fourth memory model of SPARC V9, which does not exist, is accepted.
* `EFlags.C138_empty_violation`: With an empty buffer a backend that knows a name would be given SIZE_MAX bytes to copy.
* `EFlags.C138_first_violation`: Whatever is known about the other flags, only the first name can be read in the result, because its NUL is kept in front of the comma.
* `EFlags.C138_join_violation`: A hook that knows two flags: only the first name can be read in the result, because its NUL is kept in front of the comma.
* `Note.C14_progress_violation`: **C14 is false of the code for data of 4 GiB and more**: the alignment masks are 32-bit constants, so an offset beyond 2^32 comes back truncated. With 2^32 + 12 zero bytes, asking for the (empty) note at 2^32 succeeds and returns 12 as the next offset: no progress, and a caller's loop starts over.
* `Xlate.C15_note_violation`: **C15** fails for notes: a note section whose size is not a multiple of 12 (here 20 bytes: a header, a four-byte name and a four-byte descriptor) converts to memory form but the way back is refused (libelf/elf32_xlatetof.c:65 lacks the exemption of elf32_xlatetom.c:63-66).
* `Xlate.C15_note_inplace_violation`: **C15**/**C17** fail for notes converted to file form in place: the sizes that say how long the note is are read back after they have been converted (libelf/note_xlate.h:33-36), so the second note's header is left unconverted.
* `Xlate.C15_gnuhash_inplace_violation`: **C15**, **C17** fail for 64-bit GNU hash tables converted to file form in place: the number of filter words is read after it has been converted (libelf/gnuhash_xlate.h:53), so that buckets and chains are swapped as 64-bit words.
* `Xlate.C16_move32_violation`: **C16** fails for `Elf32_Move` (libelf/abstract.h:269-276): `m_info` and `m_poffset` are 32-bit fields, yet each is swapped as an eight-byte word, so a neighbouring field ends up in `m_info`. Here the source has m_info = 1 (big-endian) and the result does not.
* `Xlate.C16_move64_violation`: **C16**/**C19** fail for `ELF_T_MOVE`: one record of the advertised size (28 bytes) is accepted for conversion and not converted at all, for either class: the conversion works in steps of `sizeof` 24 (32-bit: four bytes are left over) or 32 (64-bit: nothing happens).
* `Xlate.C17_record_violation`: **C17** fails for records (libelf/gelf_xlate.c:135-143 only has a forward loop): with the destination inside the source, behind its start, the first field's store overwrites the source of the second.
* `Xlate.C17_chdr_violation`: **C17** fails for compressed sections with any partial overlap: the data is moved first and the header then taken from the overwritten source (libelf/chdr_xlate.h:11-16).
* `Xlate.C18_loop_violation`: **C18** fails: converting this version definition section to memory form into a separate buffer never returns, however long one waits. The auxiliary record overlaps the definition's `vd_next` and zeroes its converted copy, so the walk stays at offset 0 while the loop condition looks at the unconverted, non-zero field (libelf/version_xlate.h:131).
* `Xlate.C19_move_violation`: **C19** fails for `ELF_T_MOVE`: the size reported is 28 for both classes, the records are 24 and 32 bytes.
* `Xlate.C19_overflow_violation`: **C19** fails for products that do not fit: the size of 2^61 64-bit words is reported as 0 bytes, without an error.
* `Scn.C20_readonly_violation`: **C20** fails for a file without sections opened read-only: there is no room for section zero (`max` = 0), and `elf_newscn` looks at element `max - 1` of the empty block (libelf/elf_newscn.c:115-116).
* `Scn.C20_nomem_violation`: **C20** fails when memory runs out: a call to `elf_newscn` that fails because the section header cannot be allocated still adds a section (libelf/elf_newscn.c:68, 126-130).
* `Layout.C21_zeroalign_violation`: **C21** fails for data blocks with `d_align` 0, which is what `elf_newdata` sets (libelf/elf_newdata.c:96-110): zero passes the power-of-two test and rounding up to it gives 0 (libelf/elf32_updatenull.c:297, 313-314), so the second block is placed on top of the first, and the section is too small for both.
* `Layout.C21_large_violation`: **C21** fails for 64-bit files of 4 GiB and more: section offsets and sizes are cut to 32 bits (`GElf_Word`, libelf/elf32_updatenull.c:355-372) and rounding clears the upper half, so the second section is placed over the file header.
* `Layout.C21_align_violation`: **C21** fails for a data alignment of 2^32: cut to 32 bits it is 0 and the section is placed at offset 0, over the file header.
* `Write.C22_gap_violation`: **C22** fails for the gaps around sections without data: the gap before the second of two such sections is not filled (libelf/elf32_updatefile.c:761-770 asks whether the previous section was written).
* `Data.C23_stale_size_violation`: **C23** fails when the user sets sizes ahead of the data: a section just made by `elf_newscn`, given type `SHT_STRTAB` and a size but no data yet, makes `elf_strptr` search from a null pointer; a size enlarged after the data was read makes it read beyond the data.
* `Data.C23_noshdr_violation`: **C23** fails when the section headers cannot be loaded: the missing header is dereferenced (libelf/elf_strptr.c:117-118, 140-141).
* `Ar.C24_search_violation`: **C24 fails**: on this 68-byte archive the first `elf_begin` for a member never returns: the search for the long name table stays at the same header for ever.
* `Ar.C24_scan_violation`: **C24 fails**: the search reads the size of a header that is not checked and runs past the end of the mapping.
* `Ar.C24_nested_violation`: **C24 fails** for an archive that is a member of an archive and read without mapping: the inner archive is empty, but a member of the outer one is visited.
* `Ar.C24_nested_names_violation`: **C24** fails for a nested archive in a mapped file: the search for the table of long names starts at offset 8 of the mapping, not of the nested archive (libelf/elf_begin.c:726 lacks `start_offset`), finds no table, and the iteration stops at the member with the long name as if the archive ended there.
* `Ar.C25_unterminated_violation`: **C25 fails**: a name without terminator; the scan runs past the end of the mapping.
* `Ar.C25_count_violation`: **C25 fails**: eight bytes are copied for the count of an index that ends with the file.
* `Ar.C25_room_violation`: **C25 fails**: the count is compared with the size of the member without the word of the count itself: the last entry and the name are taken from the bytes after the index.
* `Ar.C25_unmapped_violation`: **C25 fails**: the same well-formed index at the end of the file is read when the file is mapped and refused when it is not: `w` bytes too many are read.
* `Data.C26_noehdr_violation`: **C26** fails for a descriptor without an ELF header (a new file before `elf32_newehdr`): the empty range at offset 0 is accepted and the missing header is dereferenced (libelf/elf_getdata_rawchunk.c:122).
* `Open.C27_short_violation`: **C27** fails for short images handed to `elf_memory` or mapped: 16 bytes with a valid identification are taken for an ELF file and the rest of the ELF header is read from behind the end (libelf/common.h:53 asks for `EI_NIDENT` bytes only, libelf/elf_begin.c:546 does not check, unlike line 611 for files that are not mapped).
* `Open.C27_xnum_violation`: **C27** fails for the extended numbering of program headers: as long as the section headers have not been loaded (a file opened without mapping), `elf_getphdrnum` reports 65535 although section header zero says otherwise (libelf/elf_getphdrnum.c:60-69), cut to what fits the file.
* `Open.C27_noehdr_violation`: **C27** fails before an ELF header exists: `elf_getphdrnum` on a descriptor of a new file dereferences the missing header (libelf/elf_getphdrnum.c:86-88) although the call it makes first has reported the error.
* `Cfi.C28_start_violation`: **C28 fails** for the beginning of a row after `DW_CFA_restore_state`: the row that covers 0x1009 begins at 0x1008, but the frame reports the beginning of the row in which the state was remembered, so that it also claims the row in between (whose CFA offset is 24, not 16).
* `Cfi.C28_offset_violation`: **C28 fails** for offsets that need more than 61 bits: they are cut off.
* `Cfi.C29_leb_violation`: **C29 fails**: the operands of `DW_CFA_advance_loc1` and of LEB128 instructions are read behind the end of the instructions, and at the end of the section outside of it.
* `Cfi.C29_block_violation`: **C29 fails** badly for blocks: if the length of a block is read behind the end, the check of the length is made with a difference that has wrapped around, and a block outside the section is accepted.
* `Enc.C30_leb_violation`: **C30 fails**: a ULEB128 pointer at the end of the section is read from outside it.
* `Enc.C30_aligned_violation`: **C30 fails** for aligned ULEB128: the size used for the alignment is that of the bytes up to the first one with the continuation bit, so a one-byte number at an aligned address is refused if no byte with that bit follows.
* `Enc.C30_funcrel_violation`: **C30 fails** for function-relative pointers: no base is added.
* `NextCfi.C31_unsized_violation`: C31 is violated. A CIE whose augmentation string has operands without a size makes the reader read the operand's encoding behind the end of the section, and makes it report instructions that start behind the end of the entry and even of the section.
* `NextCfi.C31_offset_violation`: An offset just below 2^64 passes the check, which wraps, and is read.
* `Aranges.C32_empty_violation`: C32 is violated: an empty range is returned for its address although it does not contain it, and can hide the range that does.
* `Line.C34_advance_violation`: **C34** is violated by large operands: to advance by 2^32 leaves the address where it is.
* `Line.C34_column_violation`: **C34** is violated by columns of 2^32 and more: they are neither reported nor refused, but taken modulo 2^32.
* `Line.C34_length_violation`: **C34** is violated by extended operations of 128 bytes and more: only the first byte of the length is read, the second one is taken for the opcode. Here an unknown operation of 129 bytes is taken for the end of a sequence.
* `Line.C34_last_violation`: **C34** is violated by rows at the address of the end of the last sequence: such a row is reported as the end of a sequence.
* `Line.C34_header_violation`: **C34**: a unit that ends behind `header_length`, at the end of the section, makes the code read the byte behind the section.
* `Line.C34_dirs_violation`: **C34**: a directory table that ends with the section without its final zero byte makes the code read the byte behind the section.
* `Form.C35_end_violation`: An attribute encoded as LEB128 number that would start at the end of the last unit is read behind the section.
* `Form.C35_indirect_violation`: An indirect form in the last byte of a unit makes the reader leave the unit even if another unit follows: the distance to the end of the unit becomes negative and a string is searched up to the end of the section.
* `Form.C35_block4_violation`: A block of four bytes length field that claims 2^32 - 1 bytes is taken for three bytes instead of being rejected.
* `Form.C35_block_violation`: A block whose length is 2^64 - 10 is taken for an empty value.
* `Form.C35_cut_violation`: A number cut off by the end of the unit is accepted.
* `Alloc.C36_overflow_violation`: The size of a new block is not checked for overflow: an object of 2^63 bytes is handed out from a block of 4064 bytes.
* `Alloc.C36_padding_violation`: The padding makes the sum overflow: the whole address space is handed out as one object.
* `Fde.C37_indirect_violation`: With an indirect encoding the check uses the size of the section, but the table begins later: bytes behind the section are read.
* `Fde.C37_aligned_violation`: With an aligned encoding the entries do not have the size that was checked.
* `Fde.C37_pcrel_violation`: PC-relative values of the table are taken relative to the wrong place: the first entry here starts at 0x1000 + 12 + 0x100, but an address above it is not found, and an address below it is.
* `Fde.C37_order_violation`: Two-byte values of a table in the other byte order are read in the byte order of the host.
* `Fde.C37_short_violation`: An FDE at the end of the section that has addresses but no augmentation size, although its CIE promises one: the size is read behind the section.
* `Segment.C38_coalesce_violation`: **C38** fails for contiguous segments of the same file: the second one is not entered at all, so its addresses are in no segment instead of in the preceding one.
* `Segment.C38_begin_violation`: Even the first segment reported after `dwfl_report_begin` can be lost, since what was reported last before is not forgotten.
* `Segment.C38_overlap_violation`: **C38** fails for overlapping segments: an address only in the first segment is in none.
* `Segment.C38_module_violation`: **C38** fails after a module lookup if a module starts inside a segment: the segment is no longer found.
* `Segment.C38_ndx_violation`: The number after the largest one overflows.
* `Expr.C39_deref_size_violation`: **C39** fails: reading 4 bytes with `DW_OP_deref_size` is undefined (`1 << 32`).
* `Expr.C39_cfa_violation`: **C39** fails: `DW_OP_deref_size` in an expression for the frame address accesses a NULL frame.
* `Expr.C39_shift_violation`: **C39** fails for shifts by 64 and more.
* `Expr.C39_div_violation`: **C39** fails for the division of the smallest number by -1.
* `Expr.C39_end_violation`: **C39** fails for a branch to the end of the expression: it is refused.
* `Reloc.C40_empty_violation`: **C40** fails if an empty section lies between two adjacent ones: it is found for the first address of the second, which contains that address.
* `Addrsym.C41_order_violation`: **C41** fails as far as the choice between a closer weak and an enclosing global symbol depends on their order.
* `Compress.C43_violation`: C43 fails: a section that already carries SHF_COMPRESSED is compressed again, whatever it contains. (The test compares the flag with 1.)
* `Asm.C44_violation`: **C44** fails for every number and every section with contents: the bytes of the number are never stored, the section gets uninitialised memory.
* `Asm.C45_zero_violation`: **C45** fails for the alignment 0, which passes as a power of two: with 5 bytes in the section a block of 14 bytes is allocated, less than the header that is then written to it.
* `Asm.C45_pattern_violation`: **C45** fails if a subsection shares the fill pattern of its section (`asm_newsubscn` copies the pointer, libasm/asm_newsubscn.c:95): a new pattern for the section frees it.
* `Asm.C45_empty_violation`: **C45** fails for an empty pattern: a division by zero.
* `Units.C46_short_violation`: A unit of five bytes makes `dwarf_next_unit` read beyond the section.
* `Units.C46_wrap_violation`: An offset near 2^64 makes `dwarf_next_unit` read before the section.
* `Units.C46_types_violation`: A unit of version 5 that is not a type unit in .debug_types has no signature, but eight bytes are read.
* `Units.C46_header_only_violation`: The last unit of a section is not reported if it consists of a header only.
* `Lists.C47_wrap_violation`: **C47** fails for an index with an offset of 8 bytes that is negative as `ptrdiff_t`: the list is read in front of the section.
* `Lists.C47_short_violation`: **C47** fails for an index into a section shorter than 4 bytes: the length of its header is read past its end.
* `Lists.C47_addrx_violation`: **C47** fails for large indices: the byte offset into the address table is computed modulo 2^64, so that index 2^61 gives the first address.
* `Abbrev.C48_const_violation`: An implicit constant that needs ten bytes (2^63 - 1) is read as nine bytes: the length reported for the declaration is one too small (its last byte is taken for the name of the terminating specification).
* `Die.C49_end_violation`: An attribute with a LEB128 form whose value is missing at the end of the last unit makes the queries read beyond the section.
* `Die.C49_sibling_end_violation`: A sibling attribute that points to the end of the unit is an error, it does not mean that there is no sibling.
* `Die.C49_padded_null_violation`: A null entry written with a padding byte ends the children for `dwarf_child`, but not for `dwarf_siblingof`: the number of a root with the children `[]` is an error for its sibling.
* `Gelf.C50_huge_violation`: C50 fails for huge data: with more than 2^31 entries the smallest index passes the test and memory before the buffer is read and written.
* `Gelf.C50_auxv_violation`: C50 fails for auxiliary vectors: index -1 reads the memory before the buffer of any data, and the largest index overflows.
* `Gelf.C50_phdr_violation`: C50 (program headers): gelf_update_phdr stores through a negative index whatever the number of headers.
* `Gelf.C50_move_violation`: C50 fails for move records: their functions stop the program at an assertion for data of the right type.
* `Gelf.C50_ver_violation`: C50 fails for version records: a record can be stored at an unaligned offset where it cannot be read again.
* `Xlate.C51_wrap_violation`: **C51** fails between separate buffers: with `n_namesz` = 0xfffffff9 the note length computed in 32 bits is 8, less than the header, so `note_data_len` wraps to 2^64 - 4 and the copy runs over memory (libelf/note_xlate.h:44-62).
* `Open.C52_append_violation`: **C52** fails: `elf_newscn` on a file opened for update puts the new section into a second block (`firstMax` stays 1, the number of sections becomes 2), and loading the headers afterwards writes section pointers outside the first block (libelf/elf32_getshdr.c:205-207). If the file ends with its section header table, the load fails instead, although the header asked for is in the file.
* `Open.C53_member_violation`: **C53** fails for an archive member opened without mapping: section header zero is read at `e_shoff` of the archive instead of the member (libelf/elf_getshdrstrndx.c:127-128, 200-201).
* `Ar.C54_rand_violation`: `elf_rand` on an existing member returns its offset and leaves no lock; on anything else it returns 0 with the descriptor still locked.
* `Abbrev.C56_zero_violation`: A declaration with the code 2^32 is taken for the code 0, which the hash table does not distinguish from 1: the code 1 stands for nothing at first and for the declaration of 2^32 after another lookup.
* `Abbrev.C56_getabbrev_violation`: Asking for the abbreviation at an offset behind the table of the unit (as a reader that walks over the section does) puts it into the table: afterwards a code stands for the declaration of another table.
* `Die.C57_invalid_violation`: The name that the code uses for "not found" is found in every entry.
* `Abbrev.C58_count_violation`: `dwarf_getattrcnt` does not skip the value of an implicit constant: two attributes are reported as three.
* `Abbrev.C58_count_oob_violation`: The same makes it read behind the section for an abbreviation that was accepted.
* `Units.C59_version_violation`: With a unit of an unknown version in the section the outcome depends on the history: the same lookup fails the first time and succeeds the second time.
* `Segment.C60_adjacent_violation`: **C60** fails for a module that starts where the last one ends: all higher addresses are attributed to it.
* `Segment.C60_end_violation`: **C60** fails at the end of a module that lies inside a segment and ends with it: no module is found for the end address, although one ends there and no other starts there (libdwfl/segment.c:57-58 compares with the entry after the next one, so there are two entries for the address).
* `Segment.C60_cross_violation`: **C60** fails for a module that starts with a segment and ends inside a later one: addresses behind the module are attributed to it.
* `Asm.C61_violation`: **C61** fails for every section of more than one block: the last block comes first.
* `Asm.C62_large_violation`: **C62** fails beyond 4 GiB: the mask has only 32 bits, the second subsection gets the offset 0 again.
* `Lists.C64_loop_violation`: **C64** fails for lists that are not well-formed: asking for the locations at an address never returns for an expression with a length of 2^64 - 19, which is taken for a negative number.
* `Compress.C65_large_violation`: C65 fails from 4 GiB on: a 64-bit section of 2^32 bytes or more is compressed without complaint, but only its first `length % 2^32` bytes are in the stream (avail_in has 32 bits), and decompressing the result never succeeds with defined contents.
* `Compress.C65_align_violation`: C65 fails for alignments that are not a power of two: the section is compressed, and can never be decompressed again.
* `Compress.C66_expand_violation`: C66 fails for contents zlib cannot shorten: as soon as the stream is more than 11 bytes longer than the contents (zlib adds 6 bytes and 5 for each stored block, so two stored blocks are enough), what forced GNU compression has produced is refused by GNU decompression.
* `Layout.C67_large_violation`: **C67** fails for entry sizes of 4 GiB and more, which 64-bit headers can hold: the value goes through a 32-bit variable (libelf/elf32_updatenull.c:211) and the header is changed although the type fixes no size.
* `Layout.C67_compressed_violation`: **C67** fails for compressed sections whose uncompressed size is 4 GiB or more: the size is cut to 32 bits (libelf/elf32_updatenull.c:387-397), so a symbol table with a whole number of symbols is rejected.
* `Strings.C69_offset_violation`: **C69** fails for reads that split a string: the location is that of the part in the last read (6 for 1, src/strings.c:426 and 540).
* `Strings.C69_drift_violation`: **C69** fails for a second read even if it has the string to itself: the bytes kept from the read before are counted twice (src/strings.c:548: `from += nb`), so the location is too large by the minimum length (9 for 5).
* `Strings.C69_overread_violation`: **C69** fails for a string that fills a read: the length of what was carried over is counted as part of this read (src/strings.c:402, 448-449: `xstrndup (start, curlen)`), so that bytes behind the data are copied.
* `Strings.C69_assert_violation`: **C69** fails for short reads: a string in front of a read of fewer than the minimum number of bytes is not printed, and the assertion at the end of the file fails (src/strings.c:519).
* `Strings.C69_wide_violation`: **C69** fails for characters of two and four bytes, in every file: the search goes on by one byte after each character (src/strings.c:340), so no two characters in a row are found and nothing is ever printed, unless the minimum length is 1.
* `Arlib.C71_long_first_violation`: **C71** fails if the first member that remains has a long name: `write_member` then reads its header at the start of the current range, which is still -1 (src/ar.c:857), one byte before the file.
* `Arlib.C71_long_header_violation`: **C71** fails if a member with a long name follows another one: `write_member` takes the header at the start of the current range, i.e. that of an earlier member, and only changes its name (src/ar.c:857-887). Here a name is given that no member has, for an archive with the members `a` of 4 bytes, `xxxxxxxxxxxxxxxxx` of 2 bytes, and `b`. In the new archive the second member claims 4 bytes, and `b` is lost.
* `Arlib.C72_long_first_violation`: **C72** fails for an archive that has a member with a long name, even if no member is replaced: `write_member` reads the header of the member at the start of the current range, which is still -1 (src/ar.c:857), one byte before the file. This is `eu-ar q` of one file.
* `Arlib.C72_long_header_violation`: **C72** fails for an archive in which a member with a long name follows another one: it gets the header of the earlier member with only the name changed (src/ar.c:857-887). Here a file `c` is added to an archive with the members `a` of 4 bytes, `xxxxxxxxxxxxxxxxx` of 2 bytes, and `b`; in the new archive the second member claims 4 bytes and nothing follows it.
* `Arlib.C73_wrap_violation`: **C73** fails near 4 GiB. The offset of a member is checked to fit into 32 bits before the size of the index is added, and the sum wraps (src/arlib.c:211-214, and `val += disp` in line 168). Here the member that defines `f` comes after one of nearly 4 GiB: `eu-ranlib` succeeds, but `elf_getarsym` reports for `f` an offset that is smaller than that of the member by 2^32.
* `Attrval.C74_end_violation`: **C74 is violated.** An index in one to four bytes that ends at the end of the unit is rejected: the bounds check is `datap >= endp - n` instead of `datap > endp - n`.
* `Attrval.C74_indirect_violation`: **C74 is violated.** `DW_FORM_indirect` (0x16) is never resolved: all these functions reject the attribute, although the value with its real form stands in the unit.
* `Attrval.C75_wrap_violation`: **C75 is violated.** The product of index and address size is taken modulo 2^64: index 2^61 of a unit with eight byte addresses gives entry 0 of the table instead of an error.
* `Attrval.C74_end_violation`: **C74 is violated.** An index in one to four bytes that ends at the end of the unit is rejected: the bounds check is `datap >= endp - n` instead of `datap > endp - n`.
* `Attrval.C76_flag_violation`: **C76 is violated.** `dwarf_formflag` does not check that the value lies in the unit. In a unit that ends after the code of its DIE, `dwarf_attr` finds a flag at the end of the section and `dwarf_formflag` reads the byte behind it.
* `Attrval.C77_unterminated_violation`: **C77 is violated.** Nothing checks that `.debug_str` ends with a null byte: `dwarf_formstring` returns a pointer to bytes that are not terminated inside the section.
* `Attrval.C77_end_violation`: **C77 is violated.** An entry of the string offsets table that equals the size of `.debug_str` is accepted: the check is `off > d_size`, and the pointer returned is behind the section.
* `Attrval.C77_last_violation`: **C77 is violated.** strx1 to strx4 that end at the end of the unit are rejected.
* `Scopes.C79_origin_violation`: **C79 is violated.** If the innermost inlined subroutine that contains the address is defined in another unit, which is what link time optimisation produces, `dwarf_getscopes` returns 0 although there are scopes.
* `Scopes.C79_namespace_violation`: **C79 is violated.** DIEs that have no ranges themselves, like namespaces and classes, are skipped with all that is inside: the function 2 in the namespace 1 contains the address, and `dwarf_getscopes` returns 0. `dwarf_getscopes_die` finds that function.
* `Pc.C80_entrypc_violation`: **C80 is violated.** A constant entry address, which DWARF 5 (section 2.18) defines as an offset from the base address, is always reported as an error.
* `Pc.C80_highpc_violation`: **C80 is violated.** If the high address is an index that `.debug_addr` does not have, the result is the low address plus the index, and not an error.
* `Types.C81_enumeration_violation`: **C81 is violated.** Every array with an enumeration among its dimensions is reported to have size 0, since the children of the array are looked at instead of the enumerators, and only if there are none.
* `Types.C81_overflow_violation`: **C81 is violated.** For a dimension from 0 to the largest signed number, the number of elements is computed with a signed overflow, although it could be represented: undefined behaviour.
* `Ref.C83_sup_violation`: `DW_FORM_ref_sup4` and `DW_FORM_ref_sup8` refer to the supplementary file, but `dwarf_formref_die` gives the DIE at this offset of the file itself, whatever the supplementary file is.
* `Ref.C83_types_violation`: In a unit of `.debug_types` every `DW_FORM_ref_addr` and every `DW_FORM_GNU_ref_alt` is an error, because the value is looked for in `.debug_info`.
* `Ref.C83_sig8_violation`: `DW_FORM_ref_sig8` at the end of the section: eight bytes are read although there are fewer.
* `Ref.C83_history_violation`: What a signature leads to depends on what was done before, if a unit that is no type unit has the same id: here a skeleton unit with id 7 comes first. A handle on which nothing was done gives offset 11 + 11; one that has read both units gives the type, 52 + 30.
* `Ref.C83_zero_violation`: Signature 0 is taken for signature 1: when the unit with signature 1 was read, a reference to signature 0 leads to it, although there is no such unit.
* `Macro.C84_missing_violation`: `dwarf_getmacros_off` reads the size of `.debug_macro` through a null pointer if there is no such section.
* `Macro.C84_opcodes_violation`: A header that defines all 255 opcodes, which the standard allows, ends the program with a failed assertion.
* `Macro.C84_header_violation`: After a header of 64 KiB or more the entries are looked for inside the header.
* `Macro.C84_opzero_violation`: The table of opcodes in the header writes before its array if it defines opcode 0.
* `Macro.C84_cut_violation`: A header that announces an offset of the line table and ends is read beyond the end of the section.
* `Macro.C84_end_violation`: A section that ends after an opcode is read beyond its end.
* `Macro.C84_resume_violation`: If the last unit has no zero byte at its end, it can be read to the end, but when the callback interrupts at its last entry, going on with the returned token ends the program with a failed assertion.
* `Macro.C84_line_violation`: The line table of the entries depends on the history: it is the one of the unit, but none if the macros were read with `dwarf_getmacros_off` before.
* `Macro.C84_param2_violation`: `dwarf_macro_param2` gives no string for define_strx, undef_strx, define_sup and undef_sup, whatever the file contains.
* `Macro.C84_null_violation`: A string outside of `.debug_str` is no error: `dwarf_macro_param2` returns 0 and a null pointer.
* `Handle.C85_clone_member_violation`: A copy of a member that `elf_clone` made cannot be closed: it names the archive as its parent and is not in its list, so that `elf_end` follows a null pointer.
* `Handle.C85_clone_image_violation`: A copy of a mapped file that `elf_clone` made uses the memory of the original and does not keep it: after the original was closed `elf_rawfile` returns memory that is not mapped any more.
* `Handle.C85_member_leak_violation`: `elf_rawfile` for a member of an archive that is not mapped reads the member into memory that is never given back.
* `Handle.C85_end_deadlock_violation`: With locks: when an archive is closed before its member, `elf_end` for the archive keeps the lock, and `elf_end` for the member waits for it for ever.
* `Handle.C85_rawfile_deadlock_violation`: With locks: `elf_rawfile` for a file that is not in memory locks the descriptor twice and waits for ever.
* `Handle.C85_cntl_deadlock_violation`: With locks: `elf_cntl (ELF_C_FDREAD)` for a file that is not in memory waits for ever as well.
* `Handle.C85_fdread_violation`: After `elf_cntl (ELF_C_FDREAD)`, which reads the whole archive into memory so that the file descriptor is not needed any more, no member can be opened with `ELF_C_READ`, whatever the archive contains, unless the file descriptor is given again: the member is read from it.
* `Handle.C85_memory_violation`: The same holds for archives opened with `elf_memory`.
* `Intern.C86_truncated_violation`: An operation with a LEB128 operand as the last byte of a section: the byte behind the section is read.
* `Intern.C86_unterminated_violation`: A LEB128 operand that has no end in the block: the expression is accepted with an operand of all ones.
* `Intern.C86_sleb_violation`: A signed LEB128 operand of ten bytes, which the numbers below -2^62 need: -2^63 is shown as 2^63 - 1.
* `Intern.C86_address_violation`: `DW_OP_addr` whose operand goes beyond the block: accepted, with the bytes behind the block as part of the address.
* `Intern.C86_call_violation`: The operands of `DW_OP_call2` and `DW_OP_call4`, offsets in the unit, are taken as signed: from 2^15 and 2^31 on they are shown as negative numbers.
* `Intern.C86_implicit_pointer_violation`: The offset of an implicit pointer, a signed number, is taken as unsigned: -1 is shown as 127.
* `Intern.C86_implicit_value_violation`: `DW_OP_implicit_value` as the last byte of a block: the length is read behind the block and not checked, and the bytes returned for the value can lie outside of the section.
* `Intern.C86_cache_violation`: Two blocks of different lengths at the same address: the second one is answered with the operations of the first one.
* `Intern.C86_assert_violation`: The same block as the location of one register and as the value of another one: an assertion fails.
* `Intern.C86_member_list_violation`: Before DWARF 4 a `DW_AT_data_member_location` of form data4 is the offset of a location list: it is shown as a constant offset of the member.
* `Intern.C86_member_const_violation`: The offset of a member given as a constant in the abbreviation (`DW_FORM_implicit_const`) is an error.
* `Unwind.C87_null_read_violation`: **C87 fails**: `memory_read` may be NULL, "in such case dwfl_thread_getframes will return only the initial frame"; but without call frame information the backend calls it, for all frames with a frame pointer.
* `Unwind.C87_null_frames_violation`: **C87 fails**: without `memory_read` there are more frames than the initial one if the return address is in a register.
* `Unwind.C87_endless_violation`: **C87 fails**: the walk over a stack with a cycle, made by call frame information that leaves the return address as it is, does not end.
* `Unwind.C87_unreadable_violation`: **C87 fails**: if the return address cannot be read from memory, the next frame cannot be found, but the result is 0, as at the outermost frame.
* `Unwind.C87_uninitialised_violation`: **C87 fails**: if `set_initial_registers` succeeds but gives neither a PC nor the return address register, the PC is read from memory that was never written.
* `Unwind.C87_aarch64_endless_violation`: **C87 fails**: on aarch64 the walk does not end if the frame pointer is 0 and something can be read there.
* `Unwind.C87_two_numbers_violation`: **C87 fails**: the return address register 108 of ppc64 has a value by its rule, but there is no caller because another number for the same register, 65, is undefined.
* `Relocate.C88_common_violation`: **C88** violation (common symbols). A common symbol that no module defines stands for 0, as the comment in the code says; but the search in the other modules has overwritten its value with that of the symbol it looked at last, and this is stored.
* `Relocate.C88_strings_violation`: **C88** violation (string tables). A string table of another module that does not end in a zero byte is read beyond its end.
* `Relocate.C88_overflow_violation`: **C88** violation (overflow). A 32-bit relocation for the i386 without addend adds to a signed number: a symbol at 0x1008 and the contents 0x7fffffff overflow.
* `Relocate.C88_index_violation`: **C88** violation (many sections). A symbol in section 65522 (0xfff2), which the extended index table says, is taken for a common one: its value is lost, and what the search in other modules looked at last is stored.
* `Relocate.C88_riscv_violation`: **C88** violation (RISC-V). R_RISCV_ADD8 (33), SUB8 (37), SUB6 (52) and SET6 (53), which line and frame tables use for differences of addresses, are not known: relocating reports success, but the fields stay as they are.
* `Pubnames.C89_single_violation`: C89 fails: when the section has one set, no offset other than 0 inside it can be continued at: the program is aborted.
* `Pubnames.C89_later_violation`: C89 fails: an offset from the first name of the second set on cannot be continued at, although it is what the function returned when it was stopped there: the program is aborted.
* `Pubnames.C89_read_violation`: C89 fails: four bytes are read of a unit that starts three bytes before the end of `.debug_info`.
* `Pubnames.C89_unit5_violation`: C89 fails: of a unit of version 5, whose header has one byte more, the offset of the DIE that is reported is that of the last byte of the header.
* `Pubnames.C89_length_violation`: C89 fails: when the length of the second set is one too large, its names are left out, and 0 is returned as if the list were complete.
* `Mmap.C90_phdr_violation`: **C90** fails for contents that lie where the new program header table is written: the contents of sections are saved after the headers have been written (libelf/elf32_updatefile.c:205-208 and 286-305). Here the table grows from 1 to 3 entries, the section moves behind it, and receives entries of the table.
* `Mmap.C90_phoff_violation`: **C90** fails for a program header table in the mapping that is moved towards the end (with `ELF_F_LAYOUT`): the gap is filled before the table is moved (libelf/elf32_updatefile.c:185-187).
* `Mmap.C90_table_violation`: **C90** fails for a section header table in front of the sections: filling the gap in front of the second block of a section starts at the section (libelf/elf32_updatefile.c:120-122), over the first block; and the gap between the table and the section is not filled.
* `Mmap.C90_later_violation`: **C90** fails for a second block whose buffer is contents of the file (such as the `d_buf` that `elf_getdata` returned for another section): only the first block of a section is saved (libelf/elf32_updatefile.c:280-305). Here the second block of the last section shows what the first section held.
* `Mmap.C90_mapping_violation`: **C90** fails with `ELF_C_WRITE_MMAP` when a later update makes the file larger: the mapping of the first update stays (libelf/elf_update.c:70-79 maps once, 105-116 extends the mapping only for `ELF_C_RDWR_MMAP`), and the contents are written behind its end. The first update, to 8 bytes, succeeds; the second, with a section of more than 4 bytes, writes outside of the mapping. (Mappings come in pages, so the write is caught when it goes beyond the last page.)
* `Debuglink.C91_compressed_violation`: **C91, violation: sizes from 2^63 on.** The only documented failure of `dwelf_scn_gnu_compressed_size` is -1, but for a size field from 2^63 on a negative value other than -1 comes out: a caller who compares with -1 takes it as a size.
* `Debuglink.C92_twice_violation`: **C92, violation: a descriptor is closed twice.** If the file found by name has another build ID, its descriptor is closed when the IDs are compared and again by the search: in a program with other threads the second `close` may hit a file that was opened in between. (A file that is not ELF is closed once.)
* `Debuglink.C92_closed_violation`: **C92, violation: the descriptor returned is closed.** If the file found by name is packed, it is unpacked and its descriptor closed when the IDs are compared; the number of the closed descriptor is returned all the same.
* `Debuglink.C92_sign_violation`: **C92, violation: a sign for all and a sign of the first element.** The search by name understands a plus and a minus in front of the first directory, the search by ID does not: it takes the second sign for a part of the name of the directory, which is not absolute then, and skips it.
* `Debuglink.C92_errno_violation`: **C92, violation: `errno` from before.** The search for an alternate file by ID does not clear `errno`; with a path that has no absolute element a value from an earlier call is taken for an error of the search, and the file is not looked for by name.
* `Debuglink.C92_hidden_violation`: **C92, violation: a wrong file hides the right one.** Of the places of one element only the first file is looked at; when it does not belong to the module, the other places of that element, documented as equal alternatives, are not tried.
* `Debuglink.C92_noid_violation`: **C92, violation: an alternate file of a module without build ID.** The alternate link has an ID, but the file is looked for by ID only if the module has an ID too.
* `Debuglink.C92_notdir_violation`: **C92, violation: an element that is not a directory.** The search by name passes over `ENOTDIR`; the search by ID reports it, and the search by name does not take place.
* `Debuglink.C92_root_violation`: **C92, violation: a file in the root directory.** Its directory is absolute, but below absolute elements its debug file is not looked for.
* `Modcu.C93_tiny_violation`: The last unit of `.debug_info` is not shown if it has less than five bytes of entries: the end is reported instead.
* `Modcu.C93_abort_violation`: After that, looking up an address of this unit violates an assertion: the process is aborted.
* `Modcu.C93_history_violation`: What the walk says about such a unit depends on the history: once the range table was used, the walk fails.
* `Modcu.C93_same_violation`: With such a unit in the file, one unit is shown as two different DIEs, depending on the calls.
* `Modcu.C93_top_violation`: A range that ends at the top of the address space is not searched: the sum of its start and length is 0.
* `Modcu.C93_end_violation`: The first address behind the last range is still given to its unit.
* `Srcfile.C94_stale_violation`: **C94 violated.** If the thread has an error number pending from any earlier call, a unit without line table makes `dwarf_getsrc_file` fail with that old error, although no error happened in it (libdw/dwarf_getsrc_file.c:67-74).
* `Srcfile.C94_nodie_violation`: **C94 violated.** A unit whose DIE cannot be read is passed over, but the error it leaves makes the search fail at the next unit without line table; with both the other way round the search succeeds.
* `Srcfile.C94_again_violation`: **C94 violated.** A bad line table makes the first search fail; the error is not remembered with the table, so the same search done again (with the error number cleared by asking for it) succeeds.
* `Srcfile.C94_leak_violation`: **C94 violated.** If a row names a file that is not in the table, or a later table is bad, the search fails and the array with the lines found before is never freed (libdw/dwarf_getsrc_file.c:72 and 91-95).
* `Srcfile.C94_broken_violation`: **C94 violated.** An invalid unit header is not an error for the search: it ends there and says that there is no match.
* `Srcfile.C94_twice_violation`: **C94 violated.** Two units with one line table: its exact lines are listed twice.
* `Srcfile.C94_column_violation`: **C94 violated.** With line 0 and a column an exact line gives way to one with a smaller column.
* `Srcfile.C94_nolines_violation`: **C94 violated.** For a module a unit without line table (or with a bad one) ends the search: lines of later units are not found, while `dwarf_getsrc_file` finds them.
* `Linetab.C95_time_violation`: **C95** is violated by the times and sizes of files: the header gives a time, `dwarf_filesrc` reports 0.
* `Linetab.C95_strx_violation`: **C95** is violated by paths given as an index: the index is not counted from the first offset but from the header of the table of string offsets, so the length of the table is taken for an offset, and the name is a wrong one.
* `Linetab.C95_empty_violation`: **C95** is violated by an empty table of files: one file is reported.
* `Linetab.C95_count_violation`: **C95** is violated at the end of a unit: the number of files is read without a test, here behind the end of the section.
* `Linetab.C95_terminator_violation`: **C95** is violated by a section of strings without a final zero byte: the string is searched behind the section.
* `Linetab.C95_offset_violation`: **C95** is violated by a string offset that is the size of `.debug_str`: it passes the test, and the string is searched behind the section.
* `Symtab.C96_zero_violation`: A table in `.gnu_debugdata` whose header says that even its empty first symbol is global: one symbol of `.dynsym` is never reported; instead the empty symbol is reported twice.
* `Symtab.C96_dangling_violation`: A table in `.gnu_debugdata` with a wrong number of local symbols: its file is closed, but the module still reads symbols from the memory of the table.
* `Symtab.C96_first_violation`: A table in `.gnu_debugdata` without a string table is dropped, but its local symbols are still counted: the module has two symbols, and the first global one is the third.
* `Symtab.C96_negative_violation`: A module with symbols in `.gnu_debugdata` only: a negative number dereferences NULL instead of failing.
* `Symtab.C96_null_violation`: A module whose only table, in `.gnu_debugdata`, has no string table: it has no symbols, there is no error, and asking for one dereferences NULL.
* `Symtab.C96_mask_violation`: The mask of function addresses is applied to data too, once the backend has been opened: the same call reports two different values for a variable at an odd address, before and after a function was asked for.
* `Symtab.C96_thumb_violation`: The value of a function that is not in a descriptor is reported without the mask when function descriptors are to be resolved: a Thumb function keeps its odd address.
* `Symtab.C96_compressed_violation`: A compressed symbol table: the number of symbols is taken from the size of the compressed section, so that symbols are missing.
* `Symtab.C96_discard_violation`: A table in `.gnu_debugdata` that cannot be decompressed takes the good table of the main file with it: the module reports an error.
* `Dynsym.C97_buckets_violation`: A GNU hash table whose first symbol has a number that is not below the number of buckets, as in a library that imports more than it exports, is not used. Here the strings are before the symbols: no symbols are found, although the table says how many there are.
* `Dynsym.C97_empty_violation`: A GNU hash table without symbols: the words behind it are taken for a chain. Here these are one symbol, the only one that is not hashed, and the strings; ten symbols are found, of which all but the first are made up from the strings and what follows.
* `Dynsym.C97_unset_violation`: An entry that the dynamic section does not have counts as address 0. If a segment is loaded there, not from the start of the file, the words in it are taken for a hash table: one symbol is reported instead of four.
* `Dynsym.C97_header_violation`: Symbols whose address is in no segment are not an error: the start of the file, its header, is reported as symbols.
* `Core.C98_short_violation`: A core file that is cut off: eight bytes are asked for, four are reported, without an error.
* `Core.C98_order_violation`: Segments in one order in memory and in another in the file: what is asked for is all in the core file, in two segments that are next to each other in memory, but it is not found.
* `Core.C98_gap_violation`: An address in no segment, but before one: what is before that segment in the file is reported as memory.
* `Core.C98_align_violation`: A segment that is not at a multiple of the page size in the file: what follows it there, up to the next multiple, is reported as memory.
* `Core.C98_large_violation`: A file that is not mapped, and a request for more than 4096 bytes into a new buffer: it always fails, unless the caller says in `*buffer_available` how much it can take.
* `Core.C98_string_violation`: A file that is not mapped, and a string: it is read beyond the end of the segment.
* `Core.C98_start_violation`: A file that is not mapped and does not start at the start of the descriptor: the memory is read from the wrong place.
* `Core.C98_undumped_violation`: Memory that is not in the core file, as its segment is cut off there: unwinding reads a word from the next segment, without an error.
* `Core.C98_across_violation`: A word that is partly in one segment and partly in the next, which follows in memory and in the file: it is not found.
* `Core.C98_unaligned_violation`: A segment whose address is not a multiple of the page size: unwinding reads from the wrong place.
* `Corethr.C99_zero_violation`: **C99, violation: a thread with the TID 0.** The idle threads of the processors have it in the dumps of a kernel. It ends the iteration with success, and the threads after it are lost.
* `Corethr.C99_negative_violation`: **C99, violation: a negative TID** is taken for a failure of the iteration: it ends with -1 and no error is set.
* `Corethr.C99_nested_violation`: **C99, violation: looking at another thread from the callback.** The offset of the next note is kept once for the core, not for each iteration. A callback that looks at the frames of the first thread when it is called for the second is called for the second thread again and again: `dwfl_getthreads` never ends, whatever the number of steps.
* `Corethr.C99_skip_violation`: **C99, violation: a thread is skipped.** A callback that looks at the frames of the second thread when it is called for the first is never called for the second.

## Trusted base

* Lean 4.33.0's kernel.
* The axioms of Lean's logic listed below for each theorem: at most `propext`,
  `Classical.choice` and `Quot.sound`.  No axiom of our own, no `sorry`, no
  `native_decide`, no `bv_decide`.
* The reading of the C code recorded in the `Model` files; the table above says
  which parts of the code they cover.
* Assumptions that are parameters or hypotheses of theorems, not axioms: zlib
  (`Compress.Spec.Good`), `tsearch`/`tfind` (`Fde.TreeOk`), sorting by `qsort`,
  successful allocation and system calls where the table above says so.  Nothing
  checks that the real libraries meet them.
* The statements in the `Spec` and `Props` files.

### Axioms of the claimed theorems

(output of `#print axioms` for every theorem of MANIFEST.json, without the prefix `Verif.`)

* **none** (15): Mem.C05_three_inc_violation, Auxv.C101_again_violation, Auxv.C101_unreadable_violation, Strip.C112_group_violation, Strip.C112_extended_violation, Strip.C112_debug_violation, Strip.C112_keep_group_violation, Strip.C112_loaded_debug_violation, Buildnote.C117_hang_violation, Names.C132_aeabi_violation, Open.C27_noehdr_violation, Addrsym.C41_order_violation, Gelf.C50_ver_violation, Relocate.C88_i386, Relocate.C88_aarch64
* **propext** (143): Prime.C09_small_seeds, DynHash.C10_alloc_failure_violation, Offline.C102_align_violation, Offline.C102_prelink_violation, Offline.C102_exec_violation, Offline.C102_noalign_violation, Offline.C102_lower_violation, Bkpt.C104_nolines, Bkpt.C104_same_violation, Bkpt.C104_stale_violation, Bkpt.C104_again_violation, Scopevar.C105_prefix_violation, Scopevar.C105_second_violation, Scopevar.C105_empty_violation, Errno.C111_null_violation, Errno.C111_forgotten_violation, Stripsym.C113_info_violation, Stripsym.C113_info_loaded_violation, Stripsym.C113_lost_reloc_violation, Remote.C114_order_violation, Remote.C114_noload_violation, Remote.C114_small_violation, Remote.C114_wrap_violation, Remote.C114_product_violation, Remote.C114_empty_violation, Remote.C114_hole_violation, Segrep.C116_contiguous_violation, Segrep.C116_bias_violation, Buildnote.C118_second_violation, Buildnote.C118_name_violation, Buildnote.C118_short_violation, Buildnote.C118_files_violation, Nextlines.C121_split_partial, Nextlines.C121_split_violation, Getmods.C122_order_violation, Getmods.C122_overlap_violation, Getmods.C122_discard_violation, Declfile.C123_foreign_violation, Declfile.C123_skeleton_violation, Declfile.C123_history_violation, Phdr.C125_new, Phdr.C125_nohdr_violation, Phdr.C125_class_violation, Phdr.C125_other_violation, Objnote.C126_stack64_violation, Regs.C131_x86_64_violation, Regs.C131_i386_violation, Names.C132_handle_violation, Names.C132_section_handle_violation, Names.C132_length_violation, Offscn.C133_refused, Offscn.C133_class_violation, Offscn.C133_null_violation, Datalist.C134_unreadable, Datalist.C134_mismatch, Datalist.C134_refused, Size.C137_oneline_violation, EFlags.C138_join_violation, Xlate.C19_numbers, Xlate.C19_move_violation, Xlate.C19_overflow_violation, Scn.C20_readonly_violation, Scn.C20_nomem_violation, Layout.C21_nosections, Layout.C21_zeroalign_violation, Layout.C21_large_violation, Layout.C21_align_violation, Data.C23_stale_size_violation, Data.C23_noshdr_violation, Ar.C24_scan_violation, Ar.C24_nested_violation, Ar.C24_nested_names_violation, Ar.C25_unterminated_violation, Ar.C25_count_violation, Ar.C25_room_violation, Ar.C25_unmapped_violation, Open.C27_short_violation, Open.C27_xnum_violation, Cfi.C28_offset_violation, Aranges.C32_empty_violation, Alloc.C36_overflow_violation, Alloc.C36_padding_violation, Segment.C38_coalesce_violation, Segment.C38_begin_violation, Segment.C38_overlap_violation, Segment.C38_module_violation, Segment.C38_ndx_violation, Units.C46_short_violation, Units.C46_wrap_violation, Units.C46_types_violation, Lists.C47_addrx_violation, Gelf.C50_move_violation, Open.C52_append_violation, Open.C53_member_violation, Ar.C54_rand_violation, Units.C59_version_violation, Segment.C60_adjacent_violation, Segment.C60_end_violation, Segment.C60_cross_violation, Asm.C61_one_block_partial, Asm.C61_violation, Asm.C62_large_violation, Layout.C67_large_violation, Layout.C67_compressed_violation, Strings.C69_overread_violation, Arlib.C72_long_first_violation, Arlib.C72_long_header_violation, Types.C82_lacks, Ref.C83_history_violation, Ref.C83_zero_violation, Handle.C85_clone_member_violation, Handle.C85_clone_image_violation, Handle.C85_member_leak_violation, Handle.C85_end_deadlock_violation, Handle.C85_rawfile_deadlock_violation, Handle.C85_cntl_deadlock_violation, Handle.C85_fdread_violation, Handle.C85_memory_violation, Relocate.C88_x86_64, Relocate.C88_ppc64, Relocate.C88_strings_violation, Relocate.C88_overflow_violation, Relocate.C88_untouched, Pubnames.C89_read_violation, Pubnames.C89_unit5_violation, Pubnames.C89_length_violation, Modcu.C93_history_violation, Modcu.C93_same_violation, Modcu.C93_top_violation, Modcu.C93_end_violation, Srcfile.C94_nodie_violation, Srcfile.C94_again_violation, Srcfile.C94_leak_violation, Srcfile.C94_broken_violation, Srcfile.C94_twice_violation, Srcfile.C94_column_violation, Srcfile.C94_nolines_violation, Symtab.C96_first_violation, Symtab.C96_compressed_violation, Dynsym.C97_header_violation, Core.C98_short_violation, Core.C98_gap_violation, Core.C98_align_violation
* **Quot.sound, propext** (310): Leb128.C01_uleb_local, Leb128.C01_uleb_empty_is_ub, Leb128.C02_sleb_local, Leb128.C02_sleb_violation, Leb128.C04_sleb_violation, Mem.C05_unsigned, Mem.C05_signed, Mem.C05_three, Mem.C05_addr, Maps.C100_maps_partial, Maps.C100_vdso_partial, Maps.C100_bad_partial, Funcs.C103_other, Bkpt.C104_first_violation, Scopevar.C105_name, Scopevar.C105_declared_partial, Retval.C106_value_partial, Retval.C106_void, Retval.C106_total, Retval.C106_complex_violation, Retval.C106_float128_violation, Retval.C106_sse_violation, Retval.C106_complexfloat_violation, Retval.C106_reference_violation, Retval.C106_typedef_violation, Retval.C106_member_violation, Nlist.C107_fail, Checksum.C108_unreadable_violation, Linkmap.C109_wrap_violation, Linkmap.C109_unreadable, Rdebug.C110_overrun_violation, Errno.C111_stale_violation, Errno.C111_asm_table_violation, Errno.C111_unknown, Strip.C112_before_violation, Strip.C112_group_before_violation, Stripsym.C113_reserved_violation, Stripsym.C113_hash64_violation, Remote.C114_reject, Remote.C114_short_violation, Filenote.C115_sound, Segrep.C116_wrap_violation, Buildnote.C117_beyond_violation, Unzip.C119_endless_violation, Unzip.C119_short_violation, Unzip.C119_large_violation, Unzip.C119_leak_violation, Nextlines.C121_cu_sound, Nextlines.C121_cu_partial, Nextlines.C121_progress, Nextlines.C121_own_violation, Getmods.C122_dropped, Declfile.C123_lines_partial, Declfile.C123_files_partial, Declfile.C123_decl_partial, Declfile.C123_decl_split_partial, Declfile.C123_split_violation, Altsplit.C124_path, Altsplit.C124_split, Altsplit.C124_split_once, Phdr.C125_remove_violation, Phdr.C125_zeroth_violation, Phdr.C125_mapped_violation, Phdr.C125_negative_violation, Phdr.C125_small_violation, Objnote.C126_sdt_refused, Objnote.C126_strings, Objnote.C126_sdt_violation, Pidattach.C127_attach_partial, Pidattach.C127_ways, Pidattach.C127_read32_violation, Pidattach.C127_wait_violation, Pidattach.C127_registers_violation, Pidattach.C127_nested_violation, Locdie.C129_unit_partial, Locdie.C129_info_partial, Locdie.C129_refused_partial, Locdie.C129_xderef_violation, Locdie.C129_end_violation, Locdie.C129_types_violation, Locdie.C129_call, Locdie.C129_variable, Locdie.C129_pointer, Locdie.C129_block, Locdie.C129_before_violation, Attach.C130_noarch, Attach.C130_given, Attach.C130_code, Attach.C130_fails, Attach.C130_conflict, Attach.C130_history, Attach.C130_backend_partial, Attach.C130_own, Attach.C130_stale_error_violation, Regs.C131_names_partial, Regs.C131_range_partial, Regs.C131_distinct_partial, Regs.C131_identifier_partial, Regs.C131_uniform_partial, Regs.C131_report_partial, Regs.C131_stop_partial, Regs.C131_riscv_size_violation, Regs.C131_riscv_range_violation, Regs.C131_arm_range_violation, Regs.C131_bpf_length_violation, Regs.C131_r10_violation, Regs.C131_xf16_violation, Regs.C131_float_violation, Regs.C131_dot_violation, Names.C132_binding_violation, Names.C132_encoding_violation, Names.C132_negative_violation, Offscn.C133_answer, Offscn.C133_fresh, Offscn.C133_gelf, Offscn.C133_unreadable, Offscn.C133_error_violation, Offscn.C133_added_violation, Datalist.C134_file, Datalist.C134_empty_partial, Datalist.C134_created_partial, Datalist.C134_raw, Datalist.C134_lost_violation, Datalist.C134_phantom_violation, Flags.C135_result, Flags.C135_refused, Flags.C135_stale_violation, Flags.C135_data_violation, Flags.C135_result_violation, Validate.C136_section, Validate.C136_module, Validate.C136_unknown, Size.C137_sysv_partial, Size.C137_segments_partial, Size.C137_unreadable, Size.C137_name_violation, EFlags.C138_zero, EFlags.C138_default_violation, EFlags.C138_model_violation, EFlags.C138_name, EFlags.C138_empty_violation, Note.C14_progress_violation, Xlate.C15_note_violation, Xlate.C15_note_inplace_violation, Xlate.C15_gnuhash_inplace_violation, Xlate.C16_move32_violation, Xlate.C16_move64_violation, Xlate.C17_record_violation, Xlate.C17_chdr_violation, Xlate.C18_loop_violation, Xlate.C19_fsize_partial, Write.C22_gap_violation, Data.C23_complete_partial, Ar.C24_search_ends_partial, Ar.C24_search_violation, Data.C26_range, Data.C26_complete, Data.C26_safe, Data.C26_noehdr_violation, Open.C27_sections, Open.C27_segments, Open.C27_getphdr, Open.C27_calls_safe, Cfi.C28_interval, Cfi.C29_leb_violation, Cfi.C29_block_violation, Enc.C30_leb_violation, Enc.C30_aligned_violation, Enc.C30_funcrel_violation, NextCfi.C31_unsized_violation, Line.C34_header_violation, Line.C34_dirs_violation, Form.C35_inside, Form.C35_end_violation, Form.C35_indirect_violation, Form.C35_block4_violation, Form.C35_cut_violation, Fde.C37_indirect_violation, Fde.C37_aligned_violation, Fde.C37_pcrel_violation, Fde.C37_order_violation, Fde.C37_short_violation, Expr.C39_example, Expr.C39_endless, Expr.C39_deref_size_violation, Expr.C39_cfa_violation, Expr.C39_shift_violation, Expr.C39_div_violation, Expr.C39_end_violation, Reloc.C40_inside, Reloc.C40_empty_violation, Report.C42_unique, Report.C42_report, Report.C42_end, Compress.C43_unchanged, Units.C46_safe_partial, Units.C46_header_only_violation, Lists.C47_direct, Lists.C47_none, Lists.C47_wrap_violation, Lists.C47_short_violation, Die.C49_end_violation, Die.C49_sibling_end_violation, Gelf.C50_auxv_violation, Gelf.C50_phdr_violation, Xlate.C51_wrap_violation, Open.C52_load_partial, Open.C53_strndx_partial, Abbrev.C56_getabbrev_violation, Die.C57_invalid_violation, Abbrev.C58_count_oob_violation, Asm.C63_symtab, Lists.C64_loop_violation, Strings.C69_offset_violation, Strings.C69_drift_violation, Strings.C69_assert_violation, Strings.C69_wide_violation, Arlib.C71_long_first_violation, Arlib.C71_long_header_violation, Attrval.C74_form, Attrval.C74_end_violation, Attrval.C74_indirect_violation, Attrval.C75_form, Attrval.C75_wrap_violation, Attrval.C76_block_form, Attrval.C76_flag_violation, Attrval.C77_string, Attrval.C77_unterminated_violation, Attrval.C77_end_violation, Attrval.C77_last_violation, Scopes.C78_getscopes_die, Scopes.C78_unique, Scopes.C79_innermost, Scopes.C79_namespace_violation, Types.C81_lower, Types.C81_size_partial, Types.C81_enumeration_violation, Types.C81_overflow_violation, Types.C82_inherited, Types.C82_sound, Types.C82_peel, Types.C82_peel_void, Types.C82_peel_cycle, Ref.C83_types_violation, Ref.C83_sig8_violation, Macro.C84_missing_violation, Macro.C84_opzero_violation, Macro.C84_cut_violation, Macro.C84_end_violation, Macro.C84_resume_violation, Macro.C84_line_violation, Macro.C84_param2_violation, Macro.C84_null_violation, Macro.C84_forms, Macro.C84_line_macinfo, Macro.C84_line_none, Macro.C84_outside, Intern.C86_history_partial, Intern.C86_member, Intern.C86_no_location, Intern.C86_truncated_violation, Intern.C86_unterminated_violation, Intern.C86_sleb_violation, Intern.C86_address_violation, Intern.C86_call_violation, Intern.C86_implicit_pointer_violation, Intern.C86_implicit_value_violation, Intern.C86_cache_violation, Intern.C86_assert_violation, Intern.C86_member_list_violation, Intern.C86_member_const_violation, Unwind.C87_null_read_violation, Unwind.C87_null_frames_violation, Unwind.C87_endless_violation, Unwind.C87_unreadable_violation, Unwind.C87_uninitialised_violation, Unwind.C87_aarch64_endless_violation, Unwind.C87_two_numbers_violation, Unwind.C87_source, Unwind.C87_activation, Relocate.C88_riscv_partial, Relocate.C88_common_violation, Relocate.C88_index_violation, Relocate.C88_headers, Relocate.C88_unique, Relocate.C88_fields, Pubnames.C89_ends, Mmap.C90_phdr_violation, Mmap.C90_phoff_violation, Mmap.C90_table_violation, Mmap.C90_later_violation, Mmap.C90_covered, Debuglink.C91_compressed_violation, Linetab.C95_count_violation, Linetab.C95_terminator_violation, Linetab.C95_offset_violation, Symtab.C96_once, Symtab.C96_zero_violation, Symtab.C96_dangling_violation, Symtab.C96_negative_violation, Symtab.C96_null_violation, Symtab.C96_mask_violation, Symtab.C96_thumb_violation, Symtab.C96_discard_violation, Core.C98_large_violation, Core.C98_string_violation, Core.C98_start_violation, Core.C98_undumped_violation, Core.C98_across_violation, Core.C98_unaligned_violation
* **Classical.choice, Quot.sound, propext** (524): Leb128.C01_uleb_exact, Leb128.C01_uleb_unterminated, Leb128.C01_uleb_total, Leb128.C02_sleb_exact_partial, Leb128.C02_sleb_value_partial, Leb128.C02_sleb_unterminated, Leb128.C02_sleb_total, Leb128.C03_uleb_roundtrip, Leb128.C04_sleb_roundtrip_iff_partial, Leb128.encSleb_fuel, Mem.C05_three_inc_partial, Hash.C06_elf_hash, Hash.C06_elf_hash_range, Hash.C07_gnu_hash, Hash.C08_crc_value, Hash.C08_crc_append, Hash.C08_crc_file, Hash.C08_crc_file_ok, Prime.C09_next_prime, Prime.C09_next_prime_exists, Prime.isPrime_correct, DynHash.C10_table_is_map, DynHash.C10_zero_one_conflated, Maps.C100_inode_violation, Maps.C100_names_violation, Auxv.C101_auxv64_partial, Auxv.C101_auxv32_partial, Auxv.C101_report_partial, Auxv.C101_missing, Offline.C102_layout, Offline.C102_prelaid_partial, Offline.C102_segments_partial, Offline.C102_apart_partial, Funcs.C103_getfuncs, Funcs.C103_resume_partial, Funcs.C103_twice_violation, Funcs.C103_union_violation, Bkpt.C104_sound, Bkpt.C104_plain_partial, Bkpt.C104_marked_partial, Bkpt.C104_norow_violation, Scopevar.C105_directory_violation, Nlist.C107_nlist_partial, Nlist.C107_bad, Nlist.C107_lost_violation, Nlist.C107_crash_violation, Checksum.C108_checksum_partial, Checksum.C108_strip_partial, Checksum.C108_changed_violation, Checksum.C108_gap_violation, Linkmap.C109_chain_partial, Linkmap.C109_truncated_violation, Linkmap.C109_leak_violation, Linkmap.C109_safe_partial, DynHash.C11_lookup_ends, DynHash.C11_probe_covers, Rdebug.C110_format_partial, Rdebug.C110_found_partial, Rdebug.C110_safe_partial, Rdebug.C110_format_violation, Rdebug.C110_division_violation, Errno.C111_errors_partial, Errno.C111_any, Errno.C111_asm_zero_violation, Strip.C112_links, Strip.C112_members, Strip.C112_order, Strip.C112_only, Strip.C112_kept_partial, Strip.C112_loaded, Strip.C112_keep_partial, Strip.C112_untouched, Strip.C112_debug_partial, Strip.C112_debug_symbols, Strip.C112_safe, Stripsym.C113_table_partial, Stripsym.C113_relocs_partial, Stripsym.C113_group_partial, Stripsym.C113_versions_partial, Stripsym.C113_found_partial, Stripsym.C113_info_partial, Stripsym.C113_accepts_partial, Stripsym.C113_accepts_strip_partial, Stripsym.C113_hash, Stripsym.C113_hash_safe_partial, Stripsym.C113_range_partial, Remote.C114_rebuild_partial, Remote.C114_copied_partial, Filenote.C115_found, Filenote.C115_absent, Segrep.C116_bounds_partial, Segrep.C116_bias_partial, Segrep.C116_covers_partial, Segrep.C116_size_partial, Segrep.C116_image_partial, Segrep.C116_verbatim_partial, Segrep.C116_sections_violation, Buildnote.C117_found_partial, Buildnote.C117_absent_partial, Buildnote.C117_first_partial, Buildnote.C117_sound, Buildnote.C117_terminates_partial, Buildnote.C118_found_partial, Buildnote.C118_module_partial, Buildnote.C118_absent_partial, Unzip.C119_plain, Unzip.C119_compressed_partial, Unzip.C119_image_partial, Unzip.C119_refused_partial, Unzip.C119_sound, Strtab.C12_handles_resolve, Dwbegin.C120_sections, Dwbegin.C120_opened, Dwbegin.C120_corrupt, Dwbegin.C120_errors, Dwbegin.C120_group_violation, Dwbegin.C120_mixed_violation, Nextlines.C121_next, Nextlines.C121_walk, Getmods.C122_call, Getmods.C122_resume_partial, Getmods.C122_walk_partial, Getmods.C122_table_partial, Altsplit.C124_id, Altsplit.C124_alt, Altsplit.C124_alt_once, Altsplit.C124_set, Altsplit.C124_buildid_violation, Altsplit.C124_setalt_violation, Phdr.C125_load_partial, Phdr.C125_table_partial, Phdr.C125_create_partial, Phdr.C125_modify_partial, Phdr.C125_entsize_violation, Objnote.C126_props_partial, Objnote.C126_sdt, Objnote.C126_abi, Objnote.C126_overrun_violation, Objnote.C126_wrap_violation, Objnote.C126_stack32_violation, Pidattach.C127_calls_partial, Pidattach.C127_read32_partial, Pidattach.C127_threads_partial, Pidattach.C127_threads_parse, Pidattach.C127_threads_violation, Disasm.C128_bpf_partial, Disasm.C128_stop_partial, Disasm.C128_skip_violation, Disasm.C128_bounds, Disasm.C128_invalid, Disasm.C128_far_violation, Disasm.C128_str_partial, Disasm.C128_overflow_violation, Disasm.C128_room_violation, Locdie.C129_none, Locdie.C129_constx, Locdie.C129_addrx_partial, Locdie.C129_addr4_violation, Locdie.C129_behind_violation, Strtab.C13_same_handle, Strtab.C13_suffix_free, Strtab.C13_final_size, Attach.C130_leader, Attach.C130_module, Attach.C130_bad, Attach.C130_freed_violation, Regs.C131_bounds_partial, Regs.C131_twice_violation, Names.C132_segment, Names.C132_section_type_partial, Names.C132_tag_partial, Names.C132_symbol_partial, Names.C132_binding_partial, Names.C132_osabi_partial, Names.C132_index_partial, Names.C132_scn, Names.C132_escape_partial, Names.C132_number, Names.C132_segment_distinct, Names.C132_section_type_distinct, Names.C132_tag_distinct_partial, Names.C132_symbol_distinct, Names.C132_osabi_distinct, Names.C132_nobuffer, Names.C132_escape_violation, Names.C132_escape_bound_violation, Flags.C135_flags, Flags.C135_update_partial, Flags.C135_again, Flags.C135_again_file_partial, Flags.C135_abort_violation, Validate.C136_passes_partial, Validate.C136_fails_partial, Validate.C136_limit_violation, Size.C137_bsd_partial, Size.C137_totals, Size.C137_negative_violation, EFlags.C138_check_partial, EFlags.C138_sound_partial, EFlags.C138_sparc_partial, EFlags.C138_hal_violation, EFlags.C138_room, EFlags.C138_first_violation, Note.C14_ranges, Note.C14_exact_partial, Note.C14_progress_partial, Note.C14_terminates_partial, Xlate.C15_roundtrip_partial, Xlate.C15_chdr_partial, Xlate.C15_gnuhash_partial, Xlate.C15_note_partial, Xlate.C15_version_partial, Xlate.C16_fields_partial, Xlate.C16_gnuhash_partial, Xlate.C16_note_partial, Xlate.C16_version_partial, Xlate.C17_placement_partial, Xlate.C18_safe, Xlate.C18_terminates_partial, Xlate.C18_terminates_decode_partial, Xlate.C18_gnuhash, Scn.C20_getscn_partial, Scn.C20_count_partial, Scn.C20_newscn_partial, Scn.C20_nextscn_partial, Layout.C21_layout_partial, Layout.C21_shnum, Write.C22_written_partial, Write.C22_fresh_partial, Data.C23_string_partial, Data.C23_safe_partial, Ar.C24_visits_all, Ar.C24_visits_long_partial, Ar.C24_chain_partial, Ar.C24_terminates_partial, Ar.C25_index_partial, Data.C26_foreign, Open.C27_open_safe_partial, Open.C27_sections_complete, Cfi.C28_row_partial, Cfi.C28_start_violation, Cfi.C29_section_partial, Cfi.C29_complete_partial, Enc.C30_direct, Enc.C30_indirect, Enc.C30_error, Enc.C30_safe_partial, NextCfi.C31_bounds_partial, NextCfi.C31_terminates, NextCfi.C31_entries, NextCfi.C31_offset_violation, Aranges.C32_lookup_partial, Aranges.C32_lookup_safe, Aranges.C32_table_safe, Aranges.C32_table, Aranges.C32_section_partial, Line.C33_lookup, Line.C33_table, Line.C34_lines_partial, Line.C34_safe_partial, Line.C34_advance_violation, Line.C34_column_violation, Line.C34_length_violation, Line.C34_last_violation, Form.C35_size_partial, Form.C35_safe_partial, Form.C35_accepted_partial, Form.C35_block_violation, Alloc.C36_objects_partial, Fde.C37_table_partial, Fde.C37_table_safe_partial, Fde.C37_covers, Fde.C37_lookup_partial, Fde.C37_lookup_table_partial, Fde.C37_header_partial, Segment.C38_segments_partial, Expr.C39_eval_partial, Expr.C39_safe_partial, Reloc.C40_finds_partial, Addrsym.C41_sound, Addrsym.C41_global, Addrsym.C41_found, Addrsym.C41_label, Addrsym.C41_label_found, Addrsym.C41_choice_partial, Report.C42_round, Compress.C43_refuse, Compress.C43_fields, Compress.C43_violation, Asm.C44_size_partial, Asm.C44_violation, Asm.C45_align_partial, Asm.C45_refuse, Asm.C45_history, Asm.C45_zero_violation, Asm.C45_pattern_violation, Asm.C45_empty_violation, Units.C46_units_partial, Units.C46_progress, Units.C46_unknown, Lists.C47_exact, Lists.C47_safe_partial, Lists.C47_indexed_partial, Abbrev.C48_decode_partial, Abbrev.C48_safe, Abbrev.C48_const_violation, Die.C49_sibling_partial, Die.C49_children_partial, Die.C49_safe_partial, Die.C49_padded_null_violation, Gelf.C50_get_partial, Gelf.C50_update_partial, Gelf.C50_update_get_partial, Gelf.C50_reject, Gelf.C50_auxv_partial, Gelf.C50_phdr_partial, Gelf.C50_ver_partial, Gelf.C50_symshndx_partial, Gelf.C50_huge_violation, Xlate.C51_inplace, Xlate.C51_disjoint_partial, Ar.C54_rand_partial, Ar.C55_long_name, Abbrev.C56_history_partial, Abbrev.C56_table, Abbrev.C56_zero_violation, Die.C57_attributes_partial, Die.C57_safe_partial, Abbrev.C58_attributes_partial, Abbrev.C58_attributes_safe, Abbrev.C58_count_partial, Abbrev.C58_count_violation, Units.C59_offdie, Segment.C60_modules_partial, Segment.C60_segments_partial, Asm.C62_subsections, Asm.C62_layout_partial, Lists.C64_exact, Lists.C64_addr_partial, Lists.C64_safe, Compress.C65_roundtrip_partial, Compress.C65_smaller, Compress.C65_decompress_safe, Compress.C65_cache, Compress.C65_large_violation, Compress.C65_align_violation, Compress.C66_refuse, Compress.C66_roundtrip_partial, Compress.C66_expand_violation, Layout.C67_entsize_partial, Sys.C68_pwrite, Sys.C68_pwrite_complete, Sys.C68_pwrite_progress, Sys.C68_write, Sys.C68_pread, Sys.C68_pread_complete, Strings.C69_mapped, Strings.C69_read_partial, Strings.C69_one_read_partial, Arlib.C70_index, Arlib.C71_delete_partial, Arlib.C71_delete_all, Arlib.C72_insert_partial, Arlib.C73_large_partial, Arlib.C73_wrap_violation, Attrval.C74_unsigned_partial, Attrval.C74_sdata, Attrval.C74_implicit, Attrval.C74_pointer, Attrval.C74_signed, Attrval.C74_signed_implicit, Attrval.C74_safe, Attrval.C75_direct, Attrval.C75_index_partial, Attrval.C75_outside_partial, Attrval.C75_safe, Attrval.C76_block, Attrval.C76_block_safe, Attrval.C76_flag_partial, Attrval.C77_strp, Attrval.C77_strx_partial, Attrval.C77_strx_outside, Attrval.C77_safe, Attrval.C77_terminated_partial, Scopes.C78_bytes, Scopes.C79_getscopes_partial, Scopes.C79_origin_violation, Pc.C80_lowpc, Pc.C80_highpc, Pc.C80_highpc_offset, Pc.C80_highpc_missing, Pc.C80_entrypc_partial, Pc.C80_entrypc_violation, Pc.C80_highpc_violation, Pc.C80_haspc_list, Pc.C80_haspc_safe_partial, Pc.C80_haspc_single, Pc.C80_haspc_none, Ref.C83_signature_partial, Ref.C83_signature_missing, Ref.C83_unit, Ref.C83_unit_outside, Ref.C83_ref_addr_partial, Ref.C83_ref_alt_partial, Ref.C83_sup_violation, Ref.C83_safe_partial, Macro.C84_call_partial, Macro.C84_session_partial, Macro.C84_param1, Macro.C84_param2_number, Macro.C84_param2_string, Macro.C84_param2_strp, Macro.C84_line_header, Macro.C84_opcodes_violation, Macro.C84_header_violation, Macro.C84_safe_partial, Handle.C85_safe_partial, Handle.C85_live_partial, Handle.C85_end_partial, Handle.C85_released_partial, Handle.C85_new_partial, Handle.C85_again_partial, Handle.C85_image_partial, Handle.C85_leak_partial, Handle.C85_other_file, Intern.C86_decode_partial, Intern.C86_intern_partial, Intern.C86_unknown, Intern.C86_nocfi, Intern.C86_short, Intern.C86_short_address_partial, Intern.C86_short_block_partial, Intern.C86_short_block1_partial, Intern.C86_short_second, Intern.C86_location_partial, Intern.C86_empty, Intern.C86_order, Intern.C86_safe_partial, Unwind.C87_aarch64, Unwind.C87_aarch64_ends_partial, Unwind.C87_frame_partial, Unwind.C87_walk, Unwind.C87_stop, Unwind.C87_initial_partial, Unwind.C87_getframes_partial, Unwind.C87_x86_64, Unwind.C87_x86_64_ends, Unwind.C87_ppc64, Unwind.C87_ppc64_ends, Unwind.C87_i386, Unwind.C87_i386_ends, Unwind.C87_ppc64_registers, Relocate.C88_again_partial, Relocate.C88_riscv_violation, Relocate.C88_safe_partial, Relocate.C88_complete_partial, Relocate.C88_section_partial, Relocate.C88_failure_partial, Relocate.C88_machine, Pubnames.C89_all_partial, Pubnames.C89_resume_partial, Pubnames.C89_single_violation, Pubnames.C89_later_violation, Pubnames.C89_sound, Pubnames.C89_safe_partial, Mmap.C90_written_partial, Mmap.C90_same_partial, Mmap.C90_mapping_violation, Debuglink.C91_link, Debuglink.C91_link_safe, Debuglink.C91_altlink, Debuglink.C91_compressed_partial, Debuglink.C91_note_partial, Debuglink.C91_id_partial, Debuglink.C92_by_name, Debuglink.C92_by_id_partial, Debuglink.C92_right, Debuglink.C92_descriptors_partial, Debuglink.C92_twice_violation, Debuglink.C92_closed_violation, Debuglink.C92_sign_violation, Debuglink.C92_errno_violation, Debuglink.C92_hidden_violation, Debuglink.C92_noid_violation, Debuglink.C92_notdir_violation, Debuglink.C92_root_violation, Modcu.C93_next_partial, Modcu.C93_walk_partial, Modcu.C93_same_partial, Modcu.C93_addr_partial, Modcu.C93_outside_partial, Modcu.C93_getsrc_partial, Modcu.C93_tiny_violation, Modcu.C93_abort_violation, Srcfile.C94_lines_partial, Srcfile.C94_module_partial, Srcfile.C94_limit_partial, Srcfile.C94_safe, Srcfile.C94_module_safe, Srcfile.C94_stale_violation, Linetab.C95_lines_partial, Linetab.C95_safe_partial, Linetab.C95_time_violation, Linetab.C95_strx_violation, Linetab.C95_empty_violation, Symtab.C96_symbols_partial, Dynsym.C97_symbols_partial, Dynsym.C97_module_partial, Dynsym.C97_safe, Dynsym.C97_buckets_violation, Dynsym.C97_empty_violation, Dynsym.C97_unset_violation, Core.C98_read_partial, Core.C98_string_partial, Core.C98_word_partial, Core.C98_order_violation, Corethr.C99_attach_partial, Corethr.C99_threads_partial, Corethr.C99_one_partial, Corethr.C99_registers_partial, Corethr.C99_zero_violation, Corethr.C99_negative_violation, Corethr.C99_nested_violation, Corethr.C99_skip_violation
