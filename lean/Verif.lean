import Verif.Abbrev.Find
import Verif.Abbrev.Lemmas
import Verif.Abbrev.Model
import Verif.Abbrev.Props
import Verif.Abbrev.Spec
import Verif.Addrsym.Lemmas
import Verif.Addrsym.Model
import Verif.Addrsym.Props
import Verif.Addrsym.Spec
import Verif.Alloc.Model
import Verif.Alloc.Props
import Verif.Altsplit.Lemmas
import Verif.Altsplit.Model
import Verif.Altsplit.Props
import Verif.Altsplit.Spec
import Verif.Ar.Lemmas
import Verif.Ar.Long
import Verif.Ar.LongSpec
import Verif.Ar.Model
import Verif.Ar.Props
import Verif.Ar.Spec
import Verif.Ar.Syms
import Verif.Aranges.Model
import Verif.Aranges.Props
import Verif.Aranges.Spec
import Verif.Arlib.Delete
import Verif.Arlib.Insert
import Verif.Arlib.Lemmas
import Verif.Arlib.Model
import Verif.Arlib.Props
import Verif.Arlib.Ranlib
import Verif.Arlib.Spec
import Verif.Arlib.Write
import Verif.Asm.Lemmas
import Verif.Asm.Model
import Verif.Asm.Props
import Verif.Asm.Spec
import Verif.Attach.Lemmas
import Verif.Attach.Model
import Verif.Attach.Props
import Verif.Attach.Spec
import Verif.Attrval.Model
import Verif.Attrval.Props
import Verif.Attrval.Spec
import Verif.Attrval.Values
import Verif.Auxv.Lemmas
import Verif.Auxv.Model
import Verif.Auxv.Props
import Verif.Auxv.Spec
import Verif.Base
import Verif.Bkpt.Model
import Verif.Bkpt.Props
import Verif.Bkpt.Spec
import Verif.Buildnote.Lemmas
import Verif.Buildnote.Model
import Verif.Buildnote.Props
import Verif.Buildnote.Spec
import Verif.Bytes
import Verif.Cfi.Lemmas
import Verif.Cfi.Model
import Verif.Cfi.Props
import Verif.Cfi.Safe
import Verif.Cfi.Spec
import Verif.Cfi.StepLemma
import Verif.Checksum.Model
import Verif.Checksum.Props
import Verif.Checksum.Spec
import Verif.Compress.Lemmas
import Verif.Compress.Model
import Verif.Compress.Props
import Verif.Compress.Spec
import Verif.Core.Lemmas
import Verif.Core.Model
import Verif.Core.Props
import Verif.Core.Spec
import Verif.Corethr.Lemmas
import Verif.Corethr.Model
import Verif.Corethr.Props
import Verif.Corethr.Spec
import Verif.Data.Model
import Verif.Data.Props
import Verif.Datalist.Model
import Verif.Datalist.Props
import Verif.Datalist.Spec
import Verif.Debuglink.Lemmas
import Verif.Debuglink.Model
import Verif.Debuglink.Props
import Verif.Debuglink.Search
import Verif.Debuglink.Spec
import Verif.Declfile.Lemmas
import Verif.Declfile.Model
import Verif.Declfile.Props
import Verif.Declfile.Spec
import Verif.Die.Lemmas
import Verif.Die.Model
import Verif.Die.Props
import Verif.Die.Safe
import Verif.Die.Spec
import Verif.Die.Tree
import Verif.Disasm.Lemmas
import Verif.Disasm.Model
import Verif.Disasm.Props
import Verif.Disasm.Spec
import Verif.Dwbegin.Lemmas
import Verif.Dwbegin.Model
import Verif.Dwbegin.Props
import Verif.Dwbegin.Spec
import Verif.DynHash.Lemmas
import Verif.DynHash.Model
import Verif.DynHash.Props
import Verif.Dynsym.Lemmas
import Verif.Dynsym.Model
import Verif.Dynsym.Props
import Verif.Dynsym.Spec
import Verif.EFlags.Model
import Verif.EFlags.Props
import Verif.EFlags.Spec
import Verif.Enc.Model
import Verif.Enc.Props
import Verif.Enc.Spec
import Verif.Errno.Model
import Verif.Errno.Props
import Verif.Errno.Spec
import Verif.Expr.Lemmas
import Verif.Expr.Model
import Verif.Expr.Props
import Verif.Expr.Spec
import Verif.Fde.Lemmas
import Verif.Fde.Model
import Verif.Fde.Props
import Verif.Fde.Spec
import Verif.Fde.Table
import Verif.Filenote.Model
import Verif.Filenote.Props
import Verif.Filenote.Spec
import Verif.Flags.Lemmas
import Verif.Flags.Model
import Verif.Flags.Props
import Verif.Flags.Spec
import Verif.Form.Model
import Verif.Form.Props
import Verif.Form.Spec
import Verif.Funcs.Model
import Verif.Funcs.Props
import Verif.Funcs.Spec
import Verif.Gelf.Lemmas
import Verif.Gelf.Model
import Verif.Gelf.Props
import Verif.Gelf.Spec
import Verif.Getmods.Lemmas
import Verif.Getmods.Model
import Verif.Getmods.Props
import Verif.Getmods.Spec
import Verif.Handle.Grow
import Verif.Handle.Lemmas
import Verif.Handle.Model
import Verif.Handle.Props
import Verif.Handle.Spec
import Verif.Hash.Model
import Verif.Hash.Props
import Verif.Intern.Decode
import Verif.Intern.History
import Verif.Intern.Lemmas
import Verif.Intern.Model
import Verif.Intern.Props
import Verif.Intern.Safe
import Verif.Intern.Spec
import Verif.Layout.EntSpec
import Verif.Layout.Entsize
import Verif.Layout.Lemmas
import Verif.Layout.Model
import Verif.Layout.Props
import Verif.Layout.Spec
import Verif.Leb128.Lemmas
import Verif.Leb128.Model
import Verif.Leb128.Props
import Verif.Leb128.Spec
import Verif.Line.Header
import Verif.Line.Lemmas
import Verif.Line.Model
import Verif.Line.Props
import Verif.Line.Safe
import Verif.Line.Spec
import Verif.Line.Step
import Verif.Linetab.Lemmas
import Verif.Linetab.Model
import Verif.Linetab.Props
import Verif.Linetab.Safe
import Verif.Linetab.Spec
import Verif.Linkmap.Lemmas
import Verif.Linkmap.Model
import Verif.Linkmap.Props
import Verif.Linkmap.Spec
import Verif.Lists.Lemmas
import Verif.Lists.Model
import Verif.Lists.Props
import Verif.Lists.Spec
import Verif.Locdie.Model
import Verif.Locdie.Props
import Verif.Locdie.Spec
import Verif.Macro.Model
import Verif.Macro.Props
import Verif.Macro.Safe
import Verif.Macro.Spec
import Verif.Maps.Lemmas
import Verif.Maps.Model
import Verif.Maps.Props
import Verif.Maps.Spec
import Verif.Mem.Model
import Verif.Mem.Props
import Verif.Mmap.Lemmas
import Verif.Mmap.Model
import Verif.Mmap.Props
import Verif.Mmap.Spec
import Verif.Modcu.Lemmas
import Verif.Modcu.Model
import Verif.Modcu.Props
import Verif.Modcu.Runs
import Verif.Modcu.Spec
import Verif.Names.Lemmas
import Verif.Names.Model
import Verif.Names.Picks
import Verif.Names.Props
import Verif.Names.Spec
import Verif.NextCfi.Model
import Verif.NextCfi.Props
import Verif.NextCfi.Spec
import Verif.Nextlines.Model
import Verif.Nextlines.Props
import Verif.Nextlines.Spec
import Verif.Nlist.Lemmas
import Verif.Nlist.Model
import Verif.Nlist.Props
import Verif.Nlist.Spec
import Verif.Note.Model
import Verif.Note.Props
import Verif.Objnote.Lemmas
import Verif.Objnote.Model
import Verif.Objnote.Props
import Verif.Objnote.Spec
import Verif.Offline.Lemmas
import Verif.Offline.Model
import Verif.Offline.Props
import Verif.Offline.Spec
import Verif.Offscn.Model
import Verif.Offscn.Props
import Verif.Offscn.Spec
import Verif.Open.Lemmas
import Verif.Open.Model
import Verif.Open.More
import Verif.Open.Props
import Verif.Open.Spec
import Verif.Pc.Model
import Verif.Pc.Props
import Verif.Pc.Spec
import Verif.Phdr.Lemmas
import Verif.Phdr.Model
import Verif.Phdr.Props
import Verif.Phdr.Spec
import Verif.Pidattach.Lemmas
import Verif.Pidattach.Model
import Verif.Pidattach.Props
import Verif.Pidattach.Spec
import Verif.Prime.Model
import Verif.Prime.Props
import Verif.Pubnames.Lemmas
import Verif.Pubnames.Model
import Verif.Pubnames.Props
import Verif.Pubnames.Safe
import Verif.Pubnames.Spec
import Verif.Rdebug.Lemmas
import Verif.Rdebug.Model
import Verif.Rdebug.Props
import Verif.Rdebug.Spec
import Verif.Ref.Model
import Verif.Ref.Props
import Verif.Ref.Spec
import Verif.Regs.Lemmas
import Verif.Regs.Model
import Verif.Regs.Props
import Verif.Regs.Spec
import Verif.Reloc.Model
import Verif.Reloc.Props
import Verif.Relocate.Again
import Verif.Relocate.Apply
import Verif.Relocate.Complete
import Verif.Relocate.Lemmas
import Verif.Relocate.Loop
import Verif.Relocate.Model
import Verif.Relocate.Props
import Verif.Relocate.Spec
import Verif.Relocate.Unique
import Verif.Remote.Lemmas
import Verif.Remote.Model
import Verif.Remote.Props
import Verif.Remote.Spec
import Verif.Report.Model
import Verif.Report.Props
import Verif.Report.Spec
import Verif.Retval.Model
import Verif.Retval.Props
import Verif.Retval.Spec
import Verif.Scn.Model
import Verif.Scn.Props
import Verif.Scopes.Lemmas
import Verif.Scopes.Model
import Verif.Scopes.Props
import Verif.Scopes.Spec
import Verif.Scopevar.Model
import Verif.Scopevar.Props
import Verif.Scopevar.Spec
import Verif.Sec
import Verif.Segment.Lemmas
import Verif.Segment.Model
import Verif.Segment.Mods
import Verif.Segment.Props
import Verif.Segment.Spec
import Verif.Segrep.Lemmas
import Verif.Segrep.Model
import Verif.Segrep.Props
import Verif.Segrep.Spec
import Verif.Size.Model
import Verif.Size.Props
import Verif.Size.Spec
import Verif.Srcfile.Lemmas
import Verif.Srcfile.Model
import Verif.Srcfile.Props
import Verif.Srcfile.Runs
import Verif.Srcfile.Spec
import Verif.Strings.Lemmas
import Verif.Strings.Model
import Verif.Strings.Props
import Verif.Strings.Spec
import Verif.Strip.Lemmas
import Verif.Strip.Model
import Verif.Strip.Passes
import Verif.Strip.Props
import Verif.Strip.Spec
import Verif.Stripsym.Hash
import Verif.Stripsym.Lemmas
import Verif.Stripsym.Model
import Verif.Stripsym.Props
import Verif.Stripsym.Spec
import Verif.Strtab.Lemmas
import Verif.Strtab.Model
import Verif.Strtab.Props
import Verif.Symtab.Lemmas
import Verif.Symtab.Model
import Verif.Symtab.Props
import Verif.Symtab.Spec
import Verif.Sys.Model
import Verif.Sys.Props
import Verif.Types.Model
import Verif.Types.Props
import Verif.Types.Spec
import Verif.Units.Lemmas
import Verif.Units.Model
import Verif.Units.Props
import Verif.Units.Spec
import Verif.Unwind.Fails
import Verif.Unwind.Lemmas
import Verif.Unwind.Loop
import Verif.Unwind.Model
import Verif.Unwind.Props
import Verif.Unwind.Rules
import Verif.Unwind.Spec
import Verif.Unwind.Walk
import Verif.Unzip.Lemmas
import Verif.Unzip.Model
import Verif.Unzip.Props
import Verif.Unzip.Spec
import Verif.Validate.Model
import Verif.Validate.Props
import Verif.Write.Link
import Verif.Write.Model
import Verif.Write.Props
import Verif.Xlate.GnuHash
import Verif.Xlate.Lemmas
import Verif.Xlate.Model
import Verif.Xlate.NoteConv
import Verif.Xlate.Notes
import Verif.Xlate.Overlap
import Verif.Xlate.Props
import Verif.Xlate.Spec
import Verif.Xlate.VerConv
import Verif.Xlate.Version
