import Verif.Model.Rw

/-! # The opcode constants: src/constants/insn.rs:7-208 -/

namespace Verif.opc

abbrev NOP : UInt8 := 0x00
abbrev ACONST_NULL : UInt8 := 0x01
abbrev ICONST_M1 : UInt8 := 0x02
abbrev ICONST_0 : UInt8 := 0x03
abbrev ICONST_1 : UInt8 := 0x04
abbrev ICONST_2 : UInt8 := 0x05
abbrev ICONST_3 : UInt8 := 0x06
abbrev ICONST_4 : UInt8 := 0x07
abbrev ICONST_5 : UInt8 := 0x08
abbrev LCONST_0 : UInt8 := 0x09
abbrev LCONST_1 : UInt8 := 0x0A
abbrev FCONST_0 : UInt8 := 0x0B
abbrev FCONST_1 : UInt8 := 0x0C
abbrev FCONST_2 : UInt8 := 0x0D
abbrev DCONST_0 : UInt8 := 0x0E
abbrev DCONST_1 : UInt8 := 0x0F
abbrev BIPUSH : UInt8 := 0x10
abbrev SIPUSH : UInt8 := 0x11
abbrev LDC : UInt8 := 0x12
abbrev LDC_W : UInt8 := 0x13
abbrev LDC2_W : UInt8 := 0x14
abbrev ILOAD : UInt8 := 0x15
abbrev LLOAD : UInt8 := 0x16
abbrev FLOAD : UInt8 := 0x17
abbrev DLOAD : UInt8 := 0x18
abbrev ALOAD : UInt8 := 0x19
abbrev ILOAD_0 : UInt8 := 0x1A
abbrev ILOAD_1 : UInt8 := 0x1B
abbrev ILOAD_2 : UInt8 := 0x1C
abbrev ILOAD_3 : UInt8 := 0x1D
abbrev LLOAD_0 : UInt8 := 0x1E
abbrev LLOAD_1 : UInt8 := 0x1F
abbrev LLOAD_2 : UInt8 := 0x20
abbrev LLOAD_3 : UInt8 := 0x21
abbrev FLOAD_0 : UInt8 := 0x22
abbrev FLOAD_1 : UInt8 := 0x23
abbrev FLOAD_2 : UInt8 := 0x24
abbrev FLOAD_3 : UInt8 := 0x25
abbrev DLOAD_0 : UInt8 := 0x26
abbrev DLOAD_1 : UInt8 := 0x27
abbrev DLOAD_2 : UInt8 := 0x28
abbrev DLOAD_3 : UInt8 := 0x29
abbrev ALOAD_0 : UInt8 := 0x2A
abbrev ALOAD_1 : UInt8 := 0x2B
abbrev ALOAD_2 : UInt8 := 0x2C
abbrev ALOAD_3 : UInt8 := 0x2D
abbrev IALOAD : UInt8 := 0x2E
abbrev LALOAD : UInt8 := 0x2F
abbrev FALOAD : UInt8 := 0x30
abbrev DALOAD : UInt8 := 0x31
abbrev AALOAD : UInt8 := 0x32
abbrev BALOAD : UInt8 := 0x33
abbrev CALOAD : UInt8 := 0x34
abbrev SALOAD : UInt8 := 0x35
abbrev ISTORE : UInt8 := 0x36
abbrev LSTORE : UInt8 := 0x37
abbrev FSTORE : UInt8 := 0x38
abbrev DSTORE : UInt8 := 0x39
abbrev ASTORE : UInt8 := 0x3A
abbrev ISTORE_0 : UInt8 := 0x3B
abbrev ISTORE_1 : UInt8 := 0x3C
abbrev ISTORE_2 : UInt8 := 0x3D
abbrev ISTORE_3 : UInt8 := 0x3E
abbrev LSTORE_0 : UInt8 := 0x3F
abbrev LSTORE_1 : UInt8 := 0x40
abbrev LSTORE_2 : UInt8 := 0x41
abbrev LSTORE_3 : UInt8 := 0x42
abbrev FSTORE_0 : UInt8 := 0x43
abbrev FSTORE_1 : UInt8 := 0x44
abbrev FSTORE_2 : UInt8 := 0x45
abbrev FSTORE_3 : UInt8 := 0x46
abbrev DSTORE_0 : UInt8 := 0x47
abbrev DSTORE_1 : UInt8 := 0x48
abbrev DSTORE_2 : UInt8 := 0x49
abbrev DSTORE_3 : UInt8 := 0x4A
abbrev ASTORE_0 : UInt8 := 0x4B
abbrev ASTORE_1 : UInt8 := 0x4C
abbrev ASTORE_2 : UInt8 := 0x4D
abbrev ASTORE_3 : UInt8 := 0x4E
abbrev IASTORE : UInt8 := 0x4F
abbrev LASTORE : UInt8 := 0x50
abbrev FASTORE : UInt8 := 0x51
abbrev DASTORE : UInt8 := 0x52
abbrev AASTORE : UInt8 := 0x53
abbrev BASTORE : UInt8 := 0x54
abbrev CASTORE : UInt8 := 0x55
abbrev SASTORE : UInt8 := 0x56
abbrev POP : UInt8 := 0x57
abbrev POP2 : UInt8 := 0x58
abbrev DUP : UInt8 := 0x59
abbrev DUP_X1 : UInt8 := 0x5A
abbrev DUP_X2 : UInt8 := 0x5B
abbrev DUP2 : UInt8 := 0x5C
abbrev DUP2_X1 : UInt8 := 0x5D
abbrev DUP2_X2 : UInt8 := 0x5E
abbrev SWAP : UInt8 := 0x5F
abbrev IADD : UInt8 := 0x60
abbrev LADD : UInt8 := 0x61
abbrev FADD : UInt8 := 0x62
abbrev DADD : UInt8 := 0x63
abbrev ISUB : UInt8 := 0x64
abbrev LSUB : UInt8 := 0x65
abbrev FSUB : UInt8 := 0x66
abbrev DSUB : UInt8 := 0x67
abbrev IMUL : UInt8 := 0x68
abbrev LMUL : UInt8 := 0x69
abbrev FMUL : UInt8 := 0x6A
abbrev DMUL : UInt8 := 0x6B
abbrev IDIV : UInt8 := 0x6C
abbrev LDIV : UInt8 := 0x6D
abbrev FDIV : UInt8 := 0x6E
abbrev DDIV : UInt8 := 0x6F
abbrev IREM : UInt8 := 0x70
abbrev LREM : UInt8 := 0x71
abbrev FREM : UInt8 := 0x72
abbrev DREM : UInt8 := 0x73
abbrev INEG : UInt8 := 0x74
abbrev LNEG : UInt8 := 0x75
abbrev FNEG : UInt8 := 0x76
abbrev DNEG : UInt8 := 0x77
abbrev ISHL : UInt8 := 0x78
abbrev LSHL : UInt8 := 0x79
abbrev ISHR : UInt8 := 0x7A
abbrev LSHR : UInt8 := 0x7B
abbrev IUSHR : UInt8 := 0x7C
abbrev LUSHR : UInt8 := 0x7D
abbrev IAND : UInt8 := 0x7E
abbrev LAND : UInt8 := 0x7F
abbrev IOR : UInt8 := 0x80
abbrev LOR : UInt8 := 0x81
abbrev IXOR : UInt8 := 0x82
abbrev LXOR : UInt8 := 0x83
abbrev IINC : UInt8 := 0x84
abbrev I2L : UInt8 := 0x85
abbrev I2F : UInt8 := 0x86
abbrev I2D : UInt8 := 0x87
abbrev L2I : UInt8 := 0x88
abbrev L2F : UInt8 := 0x89
abbrev L2D : UInt8 := 0x8A
abbrev F2I : UInt8 := 0x8B
abbrev F2L : UInt8 := 0x8C
abbrev F2D : UInt8 := 0x8D
abbrev D2I : UInt8 := 0x8E
abbrev D2L : UInt8 := 0x8F
abbrev D2F : UInt8 := 0x90
abbrev I2B : UInt8 := 0x91
abbrev I2C : UInt8 := 0x92
abbrev I2S : UInt8 := 0x93
abbrev LCMP : UInt8 := 0x94
abbrev FCMPL : UInt8 := 0x95
abbrev FCMPG : UInt8 := 0x96
abbrev DCMPL : UInt8 := 0x97
abbrev DCMPG : UInt8 := 0x98
abbrev IFEQ : UInt8 := 0x99
abbrev IFNE : UInt8 := 0x9A
abbrev IFLT : UInt8 := 0x9B
abbrev IFGE : UInt8 := 0x9C
abbrev IFGT : UInt8 := 0x9D
abbrev IFLE : UInt8 := 0x9E
abbrev IFICMPEQ : UInt8 := 0x9F
abbrev IFICMPNE : UInt8 := 0xA0
abbrev IFICMPLT : UInt8 := 0xA1
abbrev IFICMPGE : UInt8 := 0xA2
abbrev IFICMPGT : UInt8 := 0xA3
abbrev IFICMPLE : UInt8 := 0xA4
abbrev IFACMPEQ : UInt8 := 0xA5
abbrev IFACMPNE : UInt8 := 0xA6
abbrev GOTO : UInt8 := 0xA7
abbrev JSR : UInt8 := 0xA8
abbrev RET : UInt8 := 0xA9
abbrev TABLESWITCH : UInt8 := 0xAA
abbrev LOOKUPSWITCH : UInt8 := 0xAB
abbrev IRETURN : UInt8 := 0xAC
abbrev LRETURN : UInt8 := 0xAD
abbrev FRETURN : UInt8 := 0xAE
abbrev DRETURN : UInt8 := 0xAF
abbrev ARETURN : UInt8 := 0xB0
abbrev RETURN : UInt8 := 0xB1
abbrev GETSTATIC : UInt8 := 0xB2
abbrev PUTSTATIC : UInt8 := 0xB3
abbrev GETFIELD : UInt8 := 0xB4
abbrev PUTFIELD : UInt8 := 0xB5
abbrev INVOKEVIRTUAL : UInt8 := 0xB6
abbrev INVOKESPECIAL : UInt8 := 0xB7
abbrev INVOKESTATIC : UInt8 := 0xB8
abbrev INVOKEINTERFACE : UInt8 := 0xB9
abbrev INVOKEDYNAMIC : UInt8 := 0xBA
abbrev NEW : UInt8 := 0xBB
abbrev NEWARRAY : UInt8 := 0xBC
abbrev ANEWARRAY : UInt8 := 0xBD
abbrev ARRAYLENGTH : UInt8 := 0xBE
abbrev ATHROW : UInt8 := 0xBF
abbrev CHECKCAST : UInt8 := 0xC0
abbrev INSTANCEOF : UInt8 := 0xC1
abbrev MONITORENTER : UInt8 := 0xC2
abbrev MONITOREXIT : UInt8 := 0xC3
abbrev WIDE : UInt8 := 0xC4
abbrev MULTIANEWARRAY : UInt8 := 0xC5
abbrev IFNULL : UInt8 := 0xC6
abbrev IFNONNULL : UInt8 := 0xC7
abbrev GOTO_W : UInt8 := 0xC8
abbrev JSR_W : UInt8 := 0xC9

end Verif.opc
