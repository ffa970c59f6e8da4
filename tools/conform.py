#!/usr/bin/env python3
"""Write lean/Verif/Conformance/*.lean: the vectors of the project's own unit tests, run through the model.

Usage: conform.py [REPO [OUT]]  (default /repo and the folder beside this script's project)

The literals are read from the Go test files and the fixture files under testcase/; nothing is typed in by hand but the
names of the fields. The Big5 tables hold just the characters that occur, taken from Python's big5hkscs codec.
"""
import calendar
import os
import re
import sys

REPO = sys.argv[1] if len(sys.argv) > 1 else '/repo'
HERE = os.path.dirname(os.path.dirname(os.path.abspath(__file__)))
OUT = sys.argv[2] if len(sys.argv) > 2 else os.path.join(HERE, 'lean/Verif/Conformance')

TOK = re.compile(r'''\s+|//[^\n]*|(?P<raw>`[^`]*`)|(?P<str>"(?:[^"\\]|\\.)*")|(?P<num>0[xX][0-9a-fA-F]+|[0-9]+)|(?P<id>[A-Za-z_]\w*)'''
                 r'''|(?P<op>:=|[-+*/&|!=<>]=?|[{}()\[\],:.;%'])''', re.S)


class Go:
    """A Go file, and a parser for the composite literals in it."""

    def __init__(self, path):
        self.path = path
        self.text = open(os.path.join(REPO, path), encoding='utf-8').read()

    def line(self, pos):
        return self.text.count('\n', 0, pos) + 1

    def parse_at(self, marker, nth=0):
        """Parse the value that begins right behind the nth occurrence of the marker. Gives value, first and last line."""
        pos = -1
        for _ in range(nth + 1):
            pos = self.text.index(marker, pos + 1)
        self.pos = pos + len(marker)
        first = self.line(pos)
        self.peeked = None
        v = self.expr()
        return v, first, self.line(self.last)

    def peek(self):
        if self.peeked is None:
            p = self.pos
            while True:
                m = TOK.match(self.text, p)
                if not m:
                    raise SyntaxError(f'{self.path}:{self.line(p)}: {self.text[p:p + 20]!r}')
                p = m.end()
                if m.lastgroup:
                    break
            self.peeked = (m.lastgroup, m.group(), p)
        return self.peeked[:2]

    def take(self, want=None):
        k, t = self.peek()
        if want is not None and t != want:
            raise SyntaxError(f'{self.path}:{self.line(self.pos)}: {t!r} for {want!r}')
        self.pos = self.peeked[2]
        self.last = self.pos - 1
        self.peeked = None
        return k, t

    def body(self, typ):
        """`{ ... }`: a list, or a dict when the elements have keys."""
        self.take('{')
        out, keyed = [], {}
        while self.peek()[1] != '}':
            v = self.expr()
            if self.peek()[1] == ':':
                self.take()
                keyed[v[1]] = self.expr()
            else:
                out.append(v)
            if self.peek()[1] == ',':
                self.take()
        self.take('}')
        return ('lit', typ, keyed if keyed else out)

    def expr(self):
        v = self.operand()
        while self.peek()[1] == '|':
            self.take()
            v = ('num', num(v) | num(self.operand()))
        return v

    def operand(self):
        k, t = self.peek()
        if k == 'raw':
            self.take()
            return ('str', t[1:-1].encode())
        if k == 'str':
            self.take()
            return ('str', unquote(t))
        if k == 'num':
            self.take()
            return ('num', int(t, 16) if t[:2].lower() == '0x' else int(t))
        if t == '&':
            self.take()
            return self.operand()
        if t == '-':
            self.take()
            return ('num', -self.expr()[1])
        if t == '{':
            return self.body('')
        if t == '[':
            typ = ''
            while self.peek()[1] not in '{(':
                typ += self.take()[1]
            if self.peek()[1] == '(':
                return self.call(typ)
            return self.body(typ)
        if k == 'id':
            name = self.take()[1]
            while self.peek()[1] == '.':
                self.take()
                name += '.' + self.take()[1]
            nk = self.peek()[1]
            if nk == '(':
                return self.call(name)
            if nk == '{':
                return self.body(name)
            return ('id', name)
        raise SyntaxError(f'{self.path}:{self.line(self.pos)}: {t!r}')

    def call(self, f):
        self.take('(')
        args = []
        while self.peek()[1] != ')':
            args.append(self.expr())
            if self.peek()[1] == ',':
                self.take()
        self.take(')')
        return ('call', f, args)


def unquote(t):
    out = b''
    i = 1
    while i < len(t) - 1:
        if t[i] != '\\':
            out += t[i].encode()
            i += 1
        elif t[i + 1] == 'x':
            out += bytes([int(t[i + 2:i + 4], 16)])
            i += 4
        else:
            out += {'n': b'\n', 't': b'\t', '\\': b'\\', '"': b'"'}[t[i + 1]]
            i += 2
    return out


def goint(t):
    return int(t, 16) if t[:2].lower() == '0x' else int(t, 8) if len(t) > 1 and t[0] == '0' else int(t)


CONSTS = {}
for d, _, fs in os.walk(REPO):
    for f in fs:
        if f.endswith('.go') and not f.endswith('_test.go'):
            src = open(os.path.join(d, f)).read()
            for m in re.finditer(r'^\s*(?:const\s+)?(\w+)\s*(?:uint32|int)?\s*=\s*(0[xX][0-9a-fA-F]+|[0-9]+)\b', src, re.M):
                CONSTS.setdefault(m.group(1), goint(m.group(2)))

MONTHS = {m: i for i, m in enumerate(calendar.month_name) if m}
CHARS = set()


def num(v):
    if v[0] == 'num':
        return v[1]
    if v[0] == 'id':
        if v[1].startswith('time.'):
            return MONTHS[v[1][5:]]
        return CONSTS[v[1].split('.')[-1]]
    raise ValueError(v)


def date(v):
    """time.Date(...)/time.Unix(...) as a tuple of civil fields or as seconds."""
    if v[0] == 'id' and v[1] == 'time0':
        return 0
    assert v[0] == 'call', v
    if v[1] == 'time.Unix':
        return num(v[2][0][2][0]) if v[2][0][0] == 'call' else num(v[2][0])
    assert v[1] == 'time.Date', v
    return tuple(num(a) for a in v[2][:6])


def unix(v):
    d = date(v)
    return d if isinstance(d, int) else calendar.timegm(d + (0, 0, 0))


def civil(v):
    return '⟨' + ', '.join(map(str, date(v))) + '⟩'


def integer(n):
    return f'({n})' if n < 0 else str(n)


def boolean(v):
    return v[1]


def note(b):
    try:
        CHARS.update(c for c in b.decode() if ord(c) > 127)
    except UnicodeDecodeError:
        note5(b)


def note5(b):
    i = 0
    while i < len(b):
        if b[i] < 0x80:
            i += 1
            continue
        try:
            CHARS.add(b[i:i + 2].decode('big5hkscs'))
            i += 2
        except UnicodeDecodeError:
            i += 1


def text(b):
    """A Go string."""
    if b == b'':
        return '[]'
    note(b)
    if all(32 <= c < 127 for c in b):
        return 'ascii "' + b.decode().replace('\\', '\\\\').replace('"', '\\"') + '"'
    try:
        s = b.decode()
        if all(ord(c) >= 32 for c in s):
            return 'utf8 "' + s.replace('\\', '\\\\').replace('"', '\\"') + '"'
    except UnicodeDecodeError:
        pass
    return blob(b)


def blob(b):
    """Bytes, as a number, with a run of zeros at the end kept apart."""
    if not b:
        return '[]'
    core = b.rstrip(b'\0')
    z = len(b) - len(core)
    if not core:
        return f'zeros {len(b)}'
    if z < 64:
        core, z = b, 0
    s = f'bytes {len(core)} 0x{core.hex()}'
    return f'({s}) ++ zeros {z}' if z else s


def fixture(path):
    return open(os.path.join(REPO, path), 'rb').read()


def hexbytes(v):
    s = v[2][0] if v[0] == 'call' else v
    return bytes.fromhex(re.sub(r'\s', '', s[1].decode()))


def string(v):
    if v[0] == 'call' and v[1] == '[]byte':
        v = v[2][0]
    assert v[0] == 'str', v
    return v[1]


def struct(v, fields, indent):
    """A Lean structure instance from a keyed literal; fields: (go name, lean name, converter, default)."""
    d = dict(v[2]) if isinstance(v[2], dict) else {}
    parts = []
    for g, l, conv, dflt in fields:
        parts.append(f'{l} := {conv(d.pop(g)) if g in d else dflt}')
    for k in list(d):
        assert k in IGNORED, (k, v[1])
    out, line = [], '{ '
    for i, p in enumerate(parts):
        p += ',' if i < len(parts) - 1 else ' }'
        if len(line) + len(p) + indent > 116 and line.strip() not in ('{', ''):
            out.append(line.rstrip())
            line = ' ' * (indent + 2)
        line += p + ' '
    out.append(line.rstrip())
    return '\n'.join(out)


IGNORED = {'ReferRef', 'ReferFlag', 'Date'}
I = lambda v: integer(num(v))
S = lambda v: text(string(v))
T = lambda v: integer(unix(v))
B = boolean
ZT = 'zeroTimeUnix'


def score(v):
    d = v[2] if isinstance(v[2], dict) else {}
    return '⟨' + ', '.join(str(num(d[k])) if k in d else '0' for k in ('Win', 'Lose', 'Tie')) + '⟩'


def limits(v):
    d = v[2] if isinstance(v[2], dict) else {}
    return '⟨' + ', '.join(str(num(d[k])) if k in d else '0' for k in ('Posts', 'Logins', 'Regtime', 'Badpost')) + '⟩'


def pair(v):
    return '[' + ', '.join(integer(num(x)) for x in v[2]) + ']'


FILE = [('filename', 'filename', S, '[]'), ('modified', 'modified', T, ZT), ('recommend', 'recommend', I, '0'),
        ('owner', 'owner', S, '[]'), ('date', 'date', S, '[]'), ('title', 'title', S, '[]'), ('money', 'money', I, '0'),
        ('AnnoUID', 'annoUID', I, '0'), ('VoteLimits', 'voteLimits', limits, '⟨0, 0, 0, 0⟩'), ('Filemode', 'filemode', I, '0')]

BOARD = [('BrdName', 'brdName', S, '[]'), ('title', 'title', S, '[]'), ('bm', 'bm', S, '[]'), ('Brdattr', 'brdattr', I, '0'),
         ('ChessCountry', 'chessCountry', S, '[]'), ('VoteLimitPosts', 'voteLimitPosts', I, '0'),
         ('VoteLimitLogins', 'voteLimitLogins', I, '0'), ('BUpdate', 'bUpdate', T, ZT), ('PostLimitPosts', 'postLimitPosts', I, '0'),
         ('PostLimitLogins', 'postLimitLogins', I, '0'), ('BVote', 'bVote', I, '0'), ('VTime', 'vTime', T, ZT),
         ('Level', 'level', I, '0'), ('PermReload', 'permReload', T, ZT), ('Gid', 'gid', I, '0'), ('Next', 'next', pair, '[]'),
         ('FirstChild', 'firstChild', pair, '[]'), ('Parent', 'parent', I, '0'), ('ChildCount', 'childCount', I, '0'),
         ('Nuser', 'nuser', I, '0'), ('PostExpire', 'postExpire', I, '0'), ('EndGamble', 'endGamble', T, ZT),
         ('PostType', 'postType', S, '[]'), ('PostTypeF', 'postTypeF', S, '[]'),
         ('FastRecommendPause', 'fastRecommendPause', I, '0'), ('VoteLimitBadPost', 'voteLimitBadPost', I, '0'),
         ('PostLimitBadPost', 'postLimitBadPost', I, '0'), ('SRexpire', 'srExpire', T, ZT)]

Z3 = '⟨0, 0, 0⟩'
USER = [('Version', 'version', I, '0'), ('userID', 'userID', S, '[]'), ('realName', 'realName', S, '[]'),
        ('nickname', 'nickname', S, '[]'), ('password', 'password', S, '[]'), ('userFlag', 'userFlag', I, '0'),
        ('UserLevel', 'userLevel', I, '0'), ('numLoginDays', 'numLoginDays', I, '0'), ('numPosts', 'numPosts', I, '0'),
        ('firstLogin', 'firstLogin', T, ZT), ('lastLogin', 'lastLogin', T, ZT), ('lastHost', 'lastHost', S, '[]'),
        ('money', 'money', I, '0'), ('Email', 'email', S, '[]'), ('Address', 'address', S, '[]'), ('Justify', 'justify', S, '[]'),
        ('Over18', 'over18', B, 'false'), ('PagerUIType', 'pagerUIType', I, '0'), ('Pager', 'pager', I, '0'),
        ('Invisible', 'invisible', B, 'false'), ('ExMailBox', 'exMailBox', I, '0'), ('Career', 'career', S, '[]'),
        ('Role', 'role', I, '0'), ('LastSeen', 'lastSeen', T, ZT), ('TimeSetAngel', 'timeSetAngel', T, ZT),
        ('TimePlayAngel', 'timePlayAngel', T, ZT), ('LastSong', 'lastSong', T, ZT), ('LoginView', 'loginView', I, '0'),
        ('ViolateLaw', 'violateLaw', I, '0'), ('Five', 'five', score, Z3), ('ChineseChess', 'chineseChess', score, Z3),
        ('Conn6', 'conn6', score, Z3), ('GoChess', 'goChess', score, Z3), ('DarkChess', 'darkChess', score, Z3),
        ('UaVersion', 'uaVersion', I, '0'), ('Signature', 'signature', I, '0'), ('BadPost', 'badPost', I, '0'),
        ('MyAngel', 'myAngel', S, '[]'), ('ChessEloRating', 'chessEloRating', I, '0'), ('WithMe', 'withMe', I, '0'),
        ('TimeRemoveBadPost', 'timeRemoveBadPost', T, ZT), ('TimeViolateLaw', 'timeViolateLaw', T, ZT)]

INFO = [('uid', 'uid', I, '0'), ('pid', 'pid', I, '0'), ('SockAddr', 'sockAddr', I, '0'), ('UserLevel', 'userLevel', I, '0'),
        ('userID', 'userID', S, '[]'), ('nickname', 'nickname', S, '[]'), ('from', 'fromHost', S, '[]'), ('fromIP', 'fromIP', I, '0'),
        ('DarkChess', 'darkChess', score, Z3), ('AngelPause', 'angelPause', I, '0'), ('FriendTotal', 'friendTotal', I, '0'),
        ('NumFriends', 'numFriends', I, '0'), ('MyFriend', 'myFriend', None, '.replicate 256 0'),
        ('FriendOnline', 'friendOnline', None, '(Vector.replicate 256 0).set 0 268435462'),
        ('Reject', 'reject', None, '.replicate 32 0'), ('MsgCount', 'msgCount', I, '0'),
        ('Msgs', 'msgs', None, '.replicate 10 (zeros 100)'), ('Birth', 'birth', B, 'false'), ('Active', 'active', B, 'false'),
        ('Invisible', 'invisible', B, 'false'), ('Mode', 'mode', I, '0'), ('Pager', 'pager', B, 'false'), ('Conn6', 'conn6', score, Z3),
        ('LastAct', 'lastAct', T, ZT), ('Alerts', 'alerts', I, '0'), ('Signature', 'signature', I, '0'), ('DestUID', 'destUID', I, '0'),
        ('DestUIP', 'destUIP', I, '0'), ('SockActive', 'sockActive', I, '0'), ('InChat', 'inChat', I, '0'), ('ChatID', 'chatID', S, '[]'),
        ('LockMode', 'lockMode', I, '0'), ('Turn', 'turn', B, 'false'), ('MateID', 'mateID', S, '[]'), ('Color', 'color', I, '0'),
        ('Five', 'five', score, Z3), ('ChineseChess', 'chineseChess', score, Z3), ('ChessEloRating', 'chessEloRating', I, '0'),
        ('GoChess', 'goChess', score, Z3), ('WithMe', 'withMe', I, '0'), ('brcID', 'brcID', I, '0'), ('wbTime', 'wbTime', T, ZT)]


def records(vs, fields, indent=4):
    pad = ' ' * indent
    return '[' + (',\n' + pad + ' ').join(struct(v, fields, indent + 1) for v in vs) + ']'


FILES = {}


def module(name, title, imports, chunks):
    FILES[name] = ''.join(f'import {i}\n' for i in imports) + f'/-!\n# {title}\n\nWritten by /verif/tools/conform.py.\n-/\n\n' \
        'namespace Verif.Conformance\n\n' + '\n\n'.join(chunks) + '\n\nend Verif.Conformance\n'


def defn(name, typ, value, doc):
    return f'/-- {doc} -/\ndef {name} : {typ} :=\n  {value}'


def check(doc, prop):
    return f'/-- {doc} -/\nexample : {prop} := by\n  decide +kernel'


def guard(doc, e):
    return f'-- {doc}\n#guard {e}'


def cites(path, a, b):
    return f'/repo/{path}:{a}-{b}'


# --- article lists -----------------------------------------------------------------------------------------------------
def files():
    g = Go('pttbbs/file_test.go')
    out = []
    for k, (fx, fn) in enumerate([('01', 'articles01'), ('02', 'articles02'), ('03', 'articles03')]):
        v, a, b = g.parse_at('expected := ', k)
        data = fixture(f'pttbbs/testcase/file/{fx}.DIR')
        note5(data)
        out.append(defn(f'dir{fx}', 'Bytes', blob(data), f'/repo/pttbbs/testcase/file/{fx}.DIR.'))
        out.append(defn(fn, 'List FileHeader', records(v[2], FILE), f'{cites(g.path, a, b)}.'))
        out.append(check(f'`TestParse…` — the records expected of {fx}.DIR.',
                         f'openFileHeaderFile codec (some dir{fx}) = .ok {fn}'))
    v, a, b = g.parse_at('testcase := ')
    ins = [c[2]['Input'] for c in v[2]]
    exp = [hexbytes(c[2]['Expected']) for c in v[2]]
    out.append(defn('encodedArticles', 'List (FileHeader × Bytes)',
                    '[' + ',\n   '.join(f'({struct(i, FILE, 4)},\n    {blob(e)})' for i, e in zip(ins, exp)) + ']',
                    f'{cites(g.path, a, b)}.'))
    out.append(check('`TestEncodingFileHeader`.', 'encodedArticles.all (fun c => c.1.marshal codec == c.2) = true'))
    v, a, b = g.parse_at('expected := ', 3)
    out.append(defn('appended', 'List FileHeader', records(v[2], FILE), f'{cites(g.path, a, b)}.'))
    out.append(check('`TestAppendFileHeaderFileRecord`: three records are appended to a file that is not there.',
                     'openFileHeaderFile codec (appended.foldl (appendFileHeader codec) none) = .ok appended'))
    module('Articles', 'The tests of the article list — /repo/pttbbs/file_test.go', ['Verif.Conformance.Tables', 'Verif.Model.RecordFile'], out)

    g = Go('formosabbs/file_test.go')
    v, a, b = g.parse_at('expected := ')
    data = fixture('formosabbs/testcase/file/01.DIR')
    note5(data)
    rows = [f'({S(r[2]["Filename"])}, {S(r[2]["Owner"])}, {S(r[2]["Title"])}, {I(r[2]["Postno"])})' for r in v[2]]
    out = [defn('formosaDir', 'Bytes', blob(data), '/repo/formosabbs/testcase/file/01.DIR.'),
           defn('formosaRows', 'List (Bytes × Bytes × Bytes × Int32)', '[' + ',\n   '.join(rows) + ']',
                f'Name, owner, title and number — {cites(g.path, a, b)}.'),
           check('`TestParseFormosaBBSFileHeader`: the fields that are set and compared. The other compared fields keep the zero value.',
                 '(do\n      let rs ← openFormosaFile codec (some formosaDir)\n'
                 '      Res.ok (rs.map fun (r : FormosaHeader) => (r.filename, r.owner, r.title, r.postno))) = .ok formosaRows')]
    module('Formosa', 'The test of the Formosa article list — /repo/formosabbs/file_test.go',
           ['Verif.Conformance.Tables', 'Verif.Model.Formosa'], out)


# --- boards ------------------------------------------------------------------------------------------------------------
def boards():
    g = Go('pttbbs/board_test.go')
    v, a, b = g.parse_at('var testBoardHeaders = ')
    w, a2, b2 = g.parse_at('var testBoardBinary = ')
    data = fixture('pttbbs/testcase/board/01.BRD')
    note5(data)
    out = [defn('brd01', 'Bytes', blob(data), '/repo/pttbbs/testcase/board/01.BRD.'),
           defn('boardHeaders', 'List BoardHeader', records(v[2], BOARD), f'`testBoardHeaders` — {cites(g.path, a, b)}.'),
           defn('boardBinary', 'List Bytes', '[' + ',\n   '.join(blob(hexbytes(x)) for x in w[2]) + ']',
                f'`testBoardBinary` — {cites(g.path, a2, b2)}.'),
           check('`TestBoardHeader`, `TestBoardHeaderInfo`: the first eleven records.',
                 '(do\n      let hs ← openBoardHeaderFile codec (some brd01)\n'
                 '      Res.ok (hs.take 11)) = .ok (boardHeaders.take 11)'),
           check('`TestMarshalBinary`.', '(boardHeaders.take boardBinary.length).map (BoardHeader.marshal codec) = boardBinary'),
           check('`TestAppendAndRemoveBoardRecord`, first half: one record appended to an empty file is read back.',
                 '(do\n      let hs ← openBoardHeaderFile codec (appendBoardHeader codec (some []) { BoardHeader.zero with brdName := ascii "XXXSSS" })\n'
                 '      Res.ok (hs.map BoardHeader.brdName)) = .ok [ascii "XXXSSS"]')]
    module('Boards', 'The tests of the board list — /repo/pttbbs/board_test.go',
           ['Verif.Conformance.Tables', 'Verif.Model.RecordFile'], out)


# --- users -------------------------------------------------------------------------------------------------------------
def users():
    g = Go('pttbbs/passwd_test.go')
    v, a, b = g.parse_at('expected := ')
    w, a2, b2 = g.parse_at('testcase := ')
    data = fixture('pttbbs/testcase/passwd/01.PASSWDS')
    note5(data)
    c = w[2][0][2]
    n = len(v[2])
    out = []
    for k, r in enumerate(v[2]):
        out.append(defn(f'passwd{k + 1}', 'Bytes', blob(data[512 * k:512 * k + 512]),
                        f'Record {k + 1} of /repo/pttbbs/testcase/passwd/01.PASSWDS.'))
        out.append(defn(f'userec{k + 1}', 'Userec', struct(r, USER, 2), f'The record expected — {cites(g.path, a, b)}.'))
        out.append(check(f'`TestOpenUserecFile`, record {k + 1}.', f'Userec.unmarshal codec passwd{k + 1} = .ok userec{k + 1}'))
    assert not any(data[512 * n:])
    out += [guard('`TestOpenUserecFile`: the whole file, whose other records are zero. Evaluated, not checked by the kernel.',
                  '(match openUserecFile codec (some (' + ' ++ '.join(f'passwd{k + 1}' for k in range(n)) +
                  f' ++ zeros {len(data) - 512 * n})) with\n'
                  f'    | .ok us => us.length == {len(data) // 512} && us.take {n} == [' + ', '.join(f'userec{k + 1}' for k in range(n)) + ']\n'
                  '    | _ => false)'),
            defn('userecBinary', 'Bytes', blob(hexbytes(c['Expected'])), f'{cites(g.path, a2, b2)}.'),
            defn('userecInput', 'Userec', struct(c['Input'], USER, 2), f'{cites(g.path, a2, b2)}.'),
            check('`TestMarshalBinaryUserec`.', 'userecInput.marshal codec = userecBinary')]
    module('Users', 'The tests of the user list — /repo/pttbbs/passwd_test.go',
           ['Verif.Conformance.Tables', 'Verif.Model.RecordFile'], out)

    g = Go('pttbbs/userinfo_test.go')
    v, a, b = g.parse_at('expected := ')
    w, a2, b2 = g.parse_at('testcase := ')
    data = fixture('pttbbs/testcase/userinfo/01.USERINFO')
    note5(data)
    out = [defn('userinfo01', 'Bytes', blob(data), '/repo/pttbbs/testcase/userinfo/01.USERINFO.'),
           defn('onlineUser', 'UserInfo', struct(v[2][0], INFO, 2), f'{cites(g.path, a, b)} and the two assignments behind it.'),
           guard('`TestOpenUserInfoCache`. Evaluated, not checked by the kernel.',
                 'openUserInfoCache codec (some userinfo01) == .ok [onlineUser]'),
           defn('onlineInput', 'UserInfo', struct(w[2][0][2]["Input"], INFO, 2), f'{cites(g.path, a2, b2)} and the two assignments behind it.'),
           guard('`TestMarshalBinaryUserInfo`. Evaluated, not checked by the kernel.', 'onlineInput.marshal codec == userinfo01')]
    module('Online', 'The tests of the online-user record — /repo/pttbbs/userinfo_test.go',
           ['Verif.Conformance.Tables', 'Verif.Model.OnlineFile'], out)


# --- favourites --------------------------------------------------------------------------------------------------------
def fav_folder(v, ind):
    d = v[2]
    items = d.get('FavItems', ('lit', '', []))[2]
    head = ' '.join(str(num(d[k])) for k in ('NAlloc', 'DataTail', 'NBoards', 'NLines', 'NFolders', 'LineID', 'FolderID'))
    pad = '\n' + ' ' * (ind + 2)
    return f'(.mk {head}{pad}[' + (',' + pad + ' ').join(fav_item(i, ind + 3) for i in items) + '])'


def fav_item(v, ind):
    d = v[2]
    it = d['Item']
    e = it[2]
    if it[1] == 'FavBoardItem':
        s = f'(.board {num(e["BoardID"])} {unix(e["LastVisit"])} {num(e["Attr"])} [])'
    elif it[1] == 'FavFolderItem':
        s = f'(.folder {num(e["FolderID"])} ({S(e["Title"])}) (some {fav_folder(e["ThisFolder"], ind)}))'
    else:
        s = f'(.line {num(e["LineID"])})'
    return f'.mk {num(d["FavType"])} {num(d["FavAttr"])} {s}'


def favs():
    g = Go('pttbbs/fav_test.go')
    v, a, b = g.parse_at('testCases := ')
    out = ['''/-- A favourites tree written out as a list of numbers: every field the test compares as JSON, in order, each list and string
behind its length. The fuel is the depth looked at. -/
def flat : Nat → FavFolder → List Nat
  | 0, _ => [0]
  | k + 1, .mk na dt nb nl nf li fi items =>
    [na.toNat, dt.toNat, nb.toNat, nl.toNat, nf.toNat, li.toNat, fi.toNat, items.length] ++
      items.flatMap fun it =>
        match it with
        | .mk t at_ .nil => [t.toNat, at_.toNat, 1]
        | .mk t at_ (.board id lv attr _) => [t.toNat, at_.toNat, 2, id.toNat, lv.toNat, attr.toNat]
        | .mk t at_ (.folder id title f) =>
          [t.toNat, at_.toNat, 3, id.toNat, title.length] ++ title.map UInt8.toNat ++ (f.elim [0] (fun f => 1 :: flat k f))
        | .mk t at_ (.line id) => [t.toNat, at_.toNat, 4, id.toNat]''']
    for c in v[2]:
        fn = string(c[2]['filename']).decode()
        data = fixture('pttbbs/testcase/fav/' + fn)
        note5(data)
        n = fn[:2]
        e = c[2]['expected'][2]
        out.append(defn(f'fav{n}', 'Bytes', blob(data), f'/repo/pttbbs/testcase/fav/{fn}.'))
        out.append(defn(f'folder{n}', 'FavFolder', fav_folder(e['Folder'], 2), f'{cites(g.path, a, b)}.'))
        out.append(check(f'`TestOpenFavFile`, {fn}: the tree.',
                         f'(do\n      let f ← unmarshalFavFile codec fav{n}\n'
                         f'      Res.ok (f.version, flat 10 f.folder)) = .ok ({num(e["Version"])}, flat 10 folder{n})'))
        out.append(check(f'`TestOpenFavFile`, {fn}: written back, it is the file.',
                         f'(do\n      let f ← unmarshalFavFile codec fav{n}\n      f.marshal codec) = .ok fav{n}'))
    out.append(check('`TestUnmarshalFavItem` — /repo/pttbbs/fav_test.go:29-50.',
                     '(do\n      let (it, _) ← unmarshalFavItem codec [3, 1, 2] 0\n'
                     '      let b ← it.marshal codec\n'
                     '      Res.ok (it.favType, (match it.item with | .line n => some n | _ => none), b)) = .ok (3, some 2, [3, 1, 2])'))
    module('Favourites', 'The tests of the favourites file — /repo/pttbbs/fav_test.go',
           ['Verif.Conformance.Tables', 'Verif.Model.Fav'], out)


# --- login lists -------------------------------------------------------------------------------------------------------
def logins():
    g = Go('pttbbs/bad_logins_test.go')
    v, a, b = g.parse_at('testCases := ')
    out = []
    for i, c in enumerate(v[2]):
        fn = string(c[2]['filename']).decode()
        data = fixture('pttbbs/' + fn)
        rows = [f'⟨{r[2]["Success"][1]}, {S(r[2]["UserID"])}, {civil(r[2]["LoginStartTime"])}, {S(r[2]["FromHost"])}⟩'
                for r in c[2]['expected'][2]]
        out.append(defn(f'bad{i + 1}', 'Bytes', blob(data), f'/repo/pttbbs/{fn}.'))
        out.append(defn(f'attempts{i + 1}', 'List LoginAttempt', '[' + ',\n   '.join(rows) + ']', f'{cites(g.path, a, b)}.'))
        out.append(check(f'`TestOpenBadLoginFile`, {fn}.', f'readBadLogins bad{i + 1} = .ok attempts{i + 1}'))
    v, a, b = g.parse_at('testLines := ')
    out.append(defn('loginLines', 'List Bytes', '[' + ',\n   '.join(S(x) for x in v[2]) + ']', f'{cites(g.path, a, b)}.'))
    out.append(check('`TestLoginAttempt`: every line is read and written back.',
                     'loginLines.all (fun l => (do let a ← unmarshalAttempt l; Res.ok a.marshal) == .ok l) = true'))
    g = Go('pttbbs/login_recent_test.go')
    v, a, b = g.parse_at('expectedRecords := ')
    rows = [f'({civil(r[2]["LoginStartTime"])}, {S(r[2]["FromHost"])})' for r in v[2]]
    out.append(defn('recent01', 'Bytes', blob(fixture('pttbbs/testcase/logins_recent/01.logins.recent')),
                    '/repo/pttbbs/testcase/logins_recent/01.logins.recent.'))
    out.append(defn('recentRows', 'List (Civil × Bytes)', '[' + ',\n   '.join(rows) + ']', f'{cites(g.path, a, b)}.'))
    out.append(check('`TestParseLoginRecent`.',
                     '(do\n      let rs ← readRecentLogins recent01\n      Res.ok (rs.map fun (r : LoginRecent) => (r.time, r.host))) = .ok recentRows'))
    module('Logins', 'The tests of the login lists — /repo/pttbbs/bad_logins_test.go, login_recent_test.go',
           ['Verif.Conformance.Tables', 'Verif.Model.Logins'], out)


# --- paths -------------------------------------------------------------------------------------------------------------
def paths():
    g = Go('pttbbs/path_test.go')
    out = []
    names = re.findall(r'func Test(Get\w+)\(', g.text)
    for k, n in enumerate(names):
        v, a, b = g.parse_at('cases := ', k)
        fn = n[0].lower() + n[1:]
        rows = []
        for c in v[2]:
            i = c[2]['input']
            if i[0] == 'str':
                args = [S(i)]
            else:
                args = []
                for key in ('wd', 'userID', 'boardID', 'path', 'draftID', 'filename'):
                    if key in i[2]:
                        x = i[2][key]
                        args.append('[' + ', '.join(S(y) for y in x[2]) + ']' if x[0] == 'lit' else S(x))
            rows.append(f'{fn} ' + ' '.join(f'({x})' for x in args) + f' = .ok ({S(c[2]["expected"])})')
        out.append(check(f'`Test{n}` — {cites(g.path, a, b)}.', ' ∧\n    '.join(rows)))
    module('Paths', 'The tests of the file names — /repo/pttbbs/path_test.go', ['Verif.Conformance.Tables', 'Verif.Model.Path'], out)


# --- text, hashing, passwords ------------------------------------------------------------------------------------------
def texts():
    out = []
    g = Go('cstr_test.go')
    # The arrays are filled by `copy` in the tests; the four cases are the same in both.
    rows = [(b'', 13, b''), (b'123', 13, b'123'), (b'0123456789', 10, b'0123456789'), (b'01234\x006789', 10, b'01234')]
    for s, n, e in rows:
        assert not s or ('"' + s.decode().replace('\0', '\\x00') + '"') in g.text
    out.append(check('`TestCstrToBytes`, `TestCstrToString` — /repo/cstr_test.go:8-100.',
                     ' ∧\n    '.join(f'cstrToBytes ({blob(s + bytes(n - len(s)))}) = {text(e)} ∧ cstrToString ({blob(s + bytes(n - len(s)))}) = {text(e)}'
                                     for s, n, e in rows)))
    g = Go('ansi_test.go')
    v, a, b = g.parse_at('const strWithANSI = ')
    e, a2, b2 = g.parse_at('expected := ')
    out.append(check(f'`TestFilterStringANSI` — {cites(g.path, a, b2)}.',
                     f'filterANSI ({blob(string(v))}) = {text(string(e))}'))
    g = Go('pttbbs/internal/fnv/fnv_test.go')
    v, a, b = g.parse_at('testcases := ')
    rows = []
    for c in v[2]:
        d = c[2]
        rows.append(f'fnvSum (fnvWrite (fnvNew32aWith {num(d["offset"])}) ({S(d["input"])})) [] = bytes 4 {hex(num(d["expected"]))}')
    out.append(check(f'`TestFnv32a` — {cites(g.path, a, b)}.', ' ∧\n    '.join(rows)))
    g = Go('crypt/bbscrypt_test.go')
    pos = g.text.index('}{', g.text.index('tests := '))
    g.pos, g.peeked = pos + 1, None
    v = g.body('')
    rows = []
    for c in v[2]:
        d = c[2]
        rows.append(f'fcrypt ({S(d["args"][2]["key"])}) ({S(d["args"][2]["salt"])}) = .ok ({blob(string(d["expected"]))})')
    for r in rows:
        out.append(check(f'`TestFcrypt` — {cites(g.path, g.line(pos), g.line(g.last))}.', r))
    g = Go('big5_test.go')
    for nth, f in ((0, 'enc'), (1, 'dec')):
        pos = -1
        for _ in range(nth + 1):
            pos = g.text.index('tests := ', pos + 1)
        pos = g.text.index('}{', pos)
        g.pos, g.peeked = pos + 1, None
        v = g.body('')
        rows = []
        for c in v[2]:
            i = string(c[2]['args'][2]['input'])
            e = string(c[2]['expected'])
            rows.append(f'codec.{f} ({text(i)}) = {text(e)}')
        out.append(check(f'`Test{"Utf8ToBig5" if nth == 0 else "Big5ToUtf8"}` — {cites(g.path, g.line(pos), g.line(g.last))}.',
                         ' ∧\n    '.join(rows)))
    g = Go('user_comment_record_test.go')
    p, a, _ = g.parse_at('perfectData := ', 0)
    t, _, _ = g.parse_at('expectedTime := ', 0)
    o, _, _ = g.parse_at('expectedOwner := ', 0)
    bd, _, _ = g.parse_at('expectedBoardID := ', 0)
    c, _, b = g.parse_at('expectedComment := ', 0)
    out.append(check(f'`TestNewUserCommentRecord` — {cites(g.path, a, b)}.',
                     f'newUserComment 1 ({S(p)}) ({S(bd)}) [] =\n    .ok ⟨1, {civil(t)}, {S(o)}, {S(bd)}, [], {S(c)}⟩'))
    p, a, _ = g.parse_at('perfectData := ', 1)
    t, _, _ = g.parse_at('expectedTime := ', 1)
    c, _, _ = g.parse_at('expectedComment := ', 1)
    bads = [g.parse_at(f'{n} := ')[0] for n in ('dataWithoutOwner', 'dataWithInvalidTime', 'emptyData')]
    out.append(check(f'`TestParseUserComment` — /repo/{g.path}:{a}: the line that is a comment.',
                     f'parseUserComment ({S(p)}) = .ok ({S(o)}, {civil(t)}, {S(c)})'))
    for x in bads:
        out.append(check(f'`TestParseUserComment`: a line that gives an error.',
                         f'(match parseUserComment ({S(x)}) with | .err _ => true | _ => false) = true'))
    g = Go('bbs_test.go')
    v, a, b = g.parse_at('articleContent := ')
    art = hexbytes(v)
    out.append(defn('commented', 'Bytes', blob(art), f'{cites(g.path, a, b)}.'))
    out.append(check('`TestGetBoardArticleCommentRecords`: two comments.',
                     '(do\n      let cs ← articleComments [] [] commented\n      Res.ok cs.length) = .ok 2'))
    g = Go('serverlet/route_users_test.go')
    v, a, b = g.parse_at('cases := ')
    rows = [f'parseUserPath ({S(c[2]["input"])}) = .ok ({S(c[2]["expectdUserID"])}, {S(c[2]["expectdItem"])})' for c in v[2]]
    out.append(check(f'`TestParseUserPath` — {cites(g.path, a, b)}.', ' ∧\n    '.join(rows)))
    module('Texts', 'The tests of strings, hashes, passwords, comments and routes',
           ['Verif.Conformance.Tables', 'Verif.Model.Comment', 'Verif.Model.Crypt', 'Verif.Model.Fnv', 'Verif.Model.Server'], out)


def tables():
    rows = []
    for ch in sorted(CHARS):
        try:
            code = ch.encode('big5hkscs')
        except UnicodeEncodeError:
            continue
        if len(code) != 2:
            continue
        lo = code[1] - (0x40 if code[1] < 0x7F else 0x62)
        rows.append((ord(ch), code[0] * 256 + code[1], (code[0] - 0x81) * 157 + lo))
    body = ''
    line = '  ['
    for i, (u, c, n) in enumerate(rows):
        e = f'({u}, {c}, {n})' + (',' if i < len(rows) - 1 else ']')
        if len(line) + len(e) > 116:
            body += line.rstrip() + '\n'
            line = '   '
        line += e + ' '
    body += line.rstrip()
    FILES['Tables'] = f'''import Verif.Model.Big5
/-!
# What the tests of the project need to run in the model

Written by /verif/tools/conform.py. The modules beside this one run the vectors of the project's unit tests through the
model. They are tests of the model, not proofs of any property.
-/

namespace Verif.Conformance

/-- `n` bytes, the first one the most significant of the number. -/
def bytes : Nat → Nat → Bytes
  | 0, _ => []
  | k + 1, n => UInt8.ofNat (n >>> (8 * k)) :: bytes k n

/-- The bytes of a Go string literal. -/
def utf8 (s : String) : Bytes := s.toList.flatMap fun c => encodeRune c.toNat

/-- Code point, Big5 code and number of the pair of bytes, for the characters that occur in the tests. Taken from another
implementation of the same character set, the codec big5hkscs of Python. -/
def characters : List (Nat × Nat × Nat) :=
{body}

/-- The two tables, as far as they are needed. -/
def tables : Big5Tables :=
  ⟨fun i => ((characters.find? (fun c => c.2.2 == i)).map (·.1)).getD 0,
   fun u => ((characters.find? (fun c => c.1 == u)).map (·.2.1)).getD 0⟩

/-- The codec of /repo/big5.go on these characters. -/
def codec : Codec := big5Codec tables

end Verif.Conformance
'''


files()
boards()
users()
favs()
logins()
paths()
texts()
tables()
os.makedirs(OUT, exist_ok=True)
for n, s in FILES.items():
    open(os.path.join(OUT, n + '.lean'), 'w', encoding='utf-8').write(s)
print(len(CHARS), 'characters;', ', '.join(sorted(FILES)))
