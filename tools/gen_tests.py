#!/usr/bin/env python3
"""Writes lean/Verif/Tests: the assertions of /repo/tests as kernel-checked examples about the model. The tests are read as text."""
import ast
import re

REPO = '/repo/'
OUT = '/verif/lean/Verif/Tests/'


def tests(f):
    """The test functions of a file."""
    tree = ast.parse(open(REPO + 'tests/' + f).read())
    return [c for c in ast.walk(tree) if isinstance(c, ast.FunctionDef) and c.name.startswith('test_')]


def esc(s):
    return s.replace('\\', '\\\\').replace('"', '\\"').replace('\n', '\\n').replace('\t', '\\t').replace('\r', '\\r')


def q(s):
    return 'c!"' + esc(s) + '"'


def tup(*xs):
    return '(' + ', '.join(xs) + ')'


def lst(xs):
    return '[' + ', '.join(xs) + ']'


def wrap(s, ind, w=128):
    """Breaks lines after commas outside literals."""
    out, cur = [], ''
    for tok in re.findall(r'(?:"(?:[^"\\]|\\.)*"|[^,"]|,(?! ))+(?:, )?', s):
        if len(cur) + len(tok) > w:
            out.append(cur.rstrip())
            cur = ind + '  ' + tok
        else:
            cur += tok
    return '\n'.join(out + [cur])


def value(n):
    """Value of a literal or of `'...'.split()`."""
    if isinstance(n, ast.Call) and isinstance(n.func, ast.Attribute) and n.func.attr == 'split':
        return ast.literal_eval(n.func.value).split()
    return ast.literal_eval(n)


def write(name, imports, doc, body):
    head = ''.join('import %s\n' % i for i in imports)
    open(OUT + name + '.lean', 'w').write(head + '\n/-! ' + doc + ' Written by `tools/gen_tests.py`. -/\n\nnamespace Tests\n' + body + '\nend Tests\n')


# Word tables
# ----------------------------------------------------------------------------


def rows(f):
    return [line.rstrip('\n') for line in open(REPO + 'scrappybara/data/' + f)]


GRAMS = [line.split('\t') for line in rows('langmodel/1_grams.txt')]
IRREGULAR = ['preterits', 'past_participles', 'plurals', 'comparatives', 'superlatives']
TABLES = {n: [tuple(line.split('\t')[:2]) for line in rows('english/irregular_%s.txt' % n)] for n in IRREGULAR}
NOUNS = rows('english/nouns.txt')
ADJS = rows('english/adjectives.txt')
PREFIXES = ['re', 'un', 'mis', 'dis', 'out', 'co', 'sub', 'grand']
ENDINGS = ['', 'e', 'y', 'ie', 'ic', 'f', 'fe', 've', 'man', 'us', 'on', 'ief', 'is', 'es', 'ed', 'ing', 's', 'd', 'er', 'est', 'ier',
           'iest', 'ies', 'ied']
SUFFIXES = ENDINGS[1:] + ['icking', 'icked', 'icks', 'men', 'ieves', 'ves', 'a', 'i']
SPELLINGS = [('our', 'or'), ('ise', 'ize'), ('isation', 'ization'), ('ising', 'izing'), ('iser', 'izer'), ('yse', 'yze'), ('ce', 'se'),
             ('ci', 'si'), ('og', 'ogue'), ('ae', 'e'), ('oe', 'e'), ('l', 'll'), ('p', 'pp'), ('t', 'tt')]


def neighbours(words):
    """Spellings close to the given words, among which those looked up for them."""
    words = {w.lower() for w in words}
    words |= {b for n in IRREGULAR for a, b in TABLES[n] if a in words}
    bases = set()
    for w in words:
        bases |= {w, w.split('-')[-1]}
        for p in PREFIXES:
            if w.startswith(p) and len(w) > len(p) + 2:
                bases.add(w[len(p):])
            if w.startswith(p + '-'):
                bases.add(w[len(p) + 1:])
    for b in list(bases):
        for p in SPELLINGS:
            for x, y in (p, p[::-1]):
                k = b.rfind(x)
                if k >= 0:
                    bases.add(b[:k] + y + b[k + len(x):])
    found = set()
    for b in bases:
        found |= {b, b + 'es', b + 'ed', b + 'd', b + 'ied', b + b[-1] + 'ed'} if b else {b}
        if b.endswith('y'):
            found.add(b[:-1] + 'ied')
        for s in SUFFIXES:
            if b.endswith(s) and len(b) > len(s):
                stem = b[:-len(s)]
                found |= {stem + e for e in ENDINGS}
                if len(stem) > 2 and stem[-1] == stem[-2]:
                    found |= {stem[:-1], stem[:-1] + 'e'}
    return found


def decimal(p):
    assert p.startswith('0.') and len(p) <= 19, p
    return str(int(p[2:].ljust(17, '0')))


def pipeline(words, ind, extra=()):
    """The model of the pipeline, with the entries of the tables that matter for the words."""
    near = neighbours(words)
    grams = [g for g in GRAMS if g[0] in near] + list(extra)
    parts = ['(unigrams %s)' % wrap(lst([tup(q(g[0]), g[1], decimal(g[2])) for g in grams]), ind)]
    parts += [wrap(lst([tup(q(a), q(b)) for a, b in TABLES[n] if a in near or b in near]), ind) for n in IRREGULAR]
    parts += [wrap(lst([q(x) for x in t if x in near]), ind) for t in (NOUNS, ADJS)]
    return '(pipe ' + ('\n' + ind + '  ').join(parts) + ')'


# Files of tests
# ----------------------------------------------------------------------------

DATA = ' The word tables and the\n1-grams are those of `/repo/scrappybara/data`, restricted to spellings close to the words of the tests.'


def tables_file():
    write('Tables', ['Verif.Model.Testing'], 'Word tables and 1-grams for the tests of `/repo/tests`.', '''open Py Model

/-- 1-grams with their counts and probabilities times 10^17. -/
def unigrams (rows : List (Str × Int × Nat)) : LM :=
  { maxOrder := 2
    details := rows.map fun r => (r.1, r.2.1, mkRat r.2.2 (10 ^ 17), ((mkRat r.2.2 (10 ^ 17) : ℚ) : WithBot ℚ))
    nextTokens := [] }

/-- The pipeline with the tables of irregular preterits, past participles, plurals, comparatives and superlatives, the nouns and the
adjectives. -/
def pipe (lm : LM) (preterits pps plurals comparatives superlatives : Dict Str Str) (nouns adjs : List Str) : Logic :=
  let lower : Str → Str := fun s => s.map Char.toLower
  ⟨lower, ⟨lower, lemmatizerPrefixes, lm, adjs, preterits, pps, plurals, comparatives, superlatives⟩, nouns, reverseDict pps⟩
''')


def logic_file():
    out = ['''open Py Model

/-- The tuples of a sample are the expected ones, up to order (`assertCountEqual`). -/
def Reported (c : Logic) (sample : List RawTuple) (expected : List Str) : Prop :=
  match GoldSentence.read sample >>= fun g => c.process (g.tokens, g.sent.tags, g.sent.tree, true) with
  | .ok r => (r.2.map fun t => t.flatten true).Perm expected
  | .error _ => False

instance (c : Logic) (sample : List RawTuple) (expected : List Str) : Decidable (Reported c sample expected) := by
  unfold Reported; split <;> infer_instance
''']
    for c in tests('test_logic_pipeline.py'):
        sample = expected = None
        for n in c.body:
            if isinstance(n, ast.Assign):
                sample = ast.literal_eval(n.value)
            else:
                expected = ast.literal_eval(n.value.args[0]) or []
        words = [t[0] for t in sample]
        two = c.name == 'test_2'
        note = ' With the 2-gram\n"they hate": the file of 2-grams is not in the repository.' if two else ''
        out.append('/-- `%s`: "%s"%s -/' % (c.name, ' '.join(words).replace('-/', '- /'), note))
        out.append('example : Reported\n    %s\n    %s\n    %s := by\n  decide +kernel\n' % (
            pipeline(words, '      ', [['they hate', '1', '0.00000000000000001']] if two else []),
            wrap(lst([tup(q(a), q(b), q(d), str(h)) for a, b, d, h in sample]), '    '),
            wrap(lst([q(x) for x in expected]), '    ')))
    write('LogicPipeline', ['Verif.Tests.Tables'], 'The tests of `/repo/tests/test_logic_pipeline.py`, evaluated in the model.' + DATA,
          '\n'.join(out))


def pairs(f):
    return [(c.name, [(ast.literal_eval(n.value.args[1].args[0]), ast.literal_eval(n.value.args[0])) for n in c.body]) for c in tests(f)]


def normalization_file():
    out = ['''open Py Model

/-- The lemma of a word and, if given, the suffix found. -/
def Lemma (c : Logic) (t : Str × Tag × Str × Option (Option Suffix)) : Prop :=
  match c.lemmatizer.call t.1 t.2.1 with
  | .ok r => r.1 = t.2.2.1 ∧ (t.2.2.2 = none ∨ t.2.2.2 = some r.2)
  | .error _ => False

instance (c : Logic) (t : Str × Tag × Str × Option (Option Suffix)) : Decidable (Lemma c t) := by
  unfold Lemma; split <;> infer_instance
''']
    for c in tests('test_lemmatizer.py'):
        cases = []
        for n in c.body:
            call = n.value
            if isinstance(n, ast.Assign):
                cases.append([ast.literal_eval(call.args[0]), call.args[1].attr, None, 'none'])
            elif call.args[1].id == 'lemma':
                cases[-1][2] = ast.literal_eval(call.args[0])
            else:
                v = call.args[0]
                cases[-1][3] = 'some none' if isinstance(v, ast.Constant) else 'some (some .%s)' % v.attr
        out.append('/-- `%s` of `test_lemmatizer.py`. -/' % c.name)
        out.append('example : ∀ t ∈ %s, Lemma\n    %s t := by\n  decide +kernel\n' % (
            wrap(lst([tup(q(w), '.' + t, q(lem), s) for w, t, lem, s in cases]), '  '),
            pipeline([w for w, *_ in cases] + [x[2] for x in cases], '      ')))
    for f, run in (('test_standardizer.py', 'standardize %s.lemmatizer.lm t.1'),
                   ('test_inflector.py', None)):
        for name, cases in pairs(f):
            p = pipeline([w for x in cases for w in x], '      ')
            out.append('/-- `%s` of `%s`. -/' % (name, f))
            out.append('example : ∀ t ∈ %s,\n    %s = .ok t.2 := by\n  decide +kernel\n' % (
                wrap(lst([tup(q(a), q(b)) for a, b in cases]), '  '),
                run % p if run else '(fun c : Logic => pastParticiple c.lemmatizer.lm [[]] c.reversedPps t.1)\n      %s' % p))
    write('Normalization', ['Verif.Tests.Tables'],
          'The tests of `/repo/tests/test_lemmatizer.py`, `test_standardizer.py` and `test_inflector.py`, evaluated in the model.' + DATA,
          '\n'.join(out))


def tokenizer_file():
    out = ['open Py Model\n']
    for c in tests('test_tokenizer.py'):
        cases, env = [], {}
        for n in c.body:
            if isinstance(n, ast.Assign):
                env[n.targets[0].id] = value(n.value)
                continue
            exp, call = n.value.args
            get = lambda e: env[e.id] if isinstance(e, ast.Name) else value(e)
            cases.append((get(call.args[0]), get(exp)))
        for k in range(0, len(cases), 4):
            out.append('/-- `%s` -/' % c.name)
            out.append('example : ∀ t ∈ %s,\n    tokenize asciiDB t.1 = t.2 := by\n  decide +kernel\n' % (
                wrap(lst([tup(q(a), lst([q(x) for x in b])) for a, b in cases[k:k + 4]]), '  ')))
    doc = 'Tests of `/repo/tests/test_tokenizer.py`, evaluated in the model.'
    parts, size = [['open Py Model\n'] for _ in range(4)], [0] * 4
    for d, e in sorted(zip(out[1::2], out[2::2]), key=lambda p: -len(p[1])):
        k = size.index(min(size))
        size[k] += len(e)
        parts[k] += [d, e]
    for k in range(4):
        write('Tokenizer%d' % (k + 1), ['Verif.Props.Conservation'], doc, '\n'.join(parts[k]))


def parsing_file():
    out = ['''open Py Model

/-- The transitions of the sentence of a sample. -/
def Steps (sample : List RawTuple) (expected : List (Nat × Nat × Trans)) : Prop :=
  (GoldSentence.read sample >>= fun g => g.sent.transitions 1000) = .ok (some expected)

instance (sample : List RawTuple) (expected : List (Nat × Nat × Trans)) : Decidable (Steps sample expected) := by
  unfold Steps; infer_instance
''']
    for c in tests('test_labelled_data.py'):
        out.append('/-- `%s` of `test_labelled_data.py` -/' % c.name)
        if c.name.startswith('test_arcs'):
            cases = []
            for n in c.body:
                exp, call = n.value.args
                arcs = [[-1 if isinstance(x, ast.Call) else ast.literal_eval(x) for x in a.elts] for a in call.args]
                cases.append((exp.value, *arcs))
            out.append('example : ∀ t ∈ (%s : List ((Int × Int) × (Int × Int))),\n    arcsAreCrossing t.1 t.2 = %s := by\n  decide +kernel\n' % (
                lst([tup(*[tup(*map(str, a)) for a in x[1:]]) for x in cases]), str(cases[0][0]).lower()))
        else:
            sample = ast.literal_eval(c.body[0].value)
            exp = [(ast.literal_eval(t.elts[0]), ast.literal_eval(t.elts[1]), t.elts[2].attr) for t in c.body[1].value.args[0].elts]
            out.append('example : Steps\n    %s\n    %s := by\n  decide +kernel\n' % (
                wrap(lst([tup(q(a), q(b), q(d), str(h)) for a, b, d, h in sample]), '    '),
                wrap(lst([tup(str(a), str(b), '.' + t) for a, b, t in exp]), '    ')))
    write('Parsing', ['Verif.Model.Testing'], 'The tests of `/repo/tests/test_labelled_data.py`, evaluated in the model; "minus infinity" is -1.', '\n'.join(out))


def langmodel_file():
    out = ['open Py Model\n']
    for c in tests('test_token_context.py'):
        ctx, cases = None, []
        for n in c.body:
            if isinstance(n, ast.Assign):
                ctx = [ast.literal_eval(a) for a in n.value.args]
            elif n.value.func.attr == 'assertListEqual':
                cases.append((n.value.args[1].args[0].value, ast.literal_eval(n.value.args[0])))
            else:
                cases.append((n.value.args[1].body.args[0].value, None))
        lean = '(⟨%s, %s, %s⟩ : TokenContext)' % (q(ctx[0]), lst(map(q, ctx[1])), lst(map(q, ctx[2])))
        for order, exp in cases:
            out.append('/-- `%s` of `test_token_context.py` -/' % c.name)
            out.append('example : %s.candidates %d = %s := by\n  decide +kernel\n' % (
                lean, order, '.error .assertion' if exp is None else '.ok ' + lst(map(q, exp))))
    body = tests('test_mkn_smoother.py')[0].body
    texts = [ast.literal_eval(n.value) for n in body[:7]]
    disc = [n.value.args for n in body if isinstance(n, ast.Expr) and isinstance(n.value, ast.Call) and n.value.func.attr == 'assertAlmostEqual']
    loops = [n for n in body if isinstance(n, ast.For) and isinstance(n.iter, ast.Call)]
    sizes = [n.value.args for n in body if isinstance(n, ast.Expr) and isinstance(n.value, ast.Call) and n.value.func.attr == 'assertEqual']

    def rat(x):
        n = str(int(x.replace('.', '')))
        return '(mkRat %s (10 ^ %d))' % ('(%s)' % n if n[0] == '-' else n, len(x.split('.')[1]))

    src = open(REPO + 'tests/test_mkn_smoother.py').read()
    seg = lambda n: ast.get_source_segment(src, n)
    out.append('''/-- The corpus of `test_mkn_smoother.py`. -/
def corpus : List (List Str) :=
  [%s]

/-- The store after `make_ngram` for the 1-grams, 2-grams and 3-grams of every text. -/
def corpusStore : Except PyErr Store := corpus.foldlM (fun s t => addText 3 s [t]) []

/-- `assertAlmostEqual`: the difference rounds to 0 at 7 decimals. -/
def Almost (expected found : ℚ) : Prop := 2 * 10 ^ 7 * |expected - found| ≤ 1

instance (a b : ℚ) : Decidable (Almost a b) := by unfold Almost; infer_instance
''' % ',\n    '.join(wrap(lst([q(w) for w in t.split()]), '    ') for t in texts))
    out.append('''/-- The smoother of the test. -/
def smoother : Except PyErr Mkn := do
  let store ← corpusStore
  mknInit (store.map Prod.snd) 3

/-- The order has no discounts: `KeyError`. -/
def Undiscounted (order : Nat) : Prop :=
  match smoother with
  | .ok m => (match Dict.get m.disc order with | .error _ => True | .ok _ => False)
  | .error _ => False

instance (order : Nat) : Decidable (Undiscounted order) := by
  unfold Undiscounted; split <;> first | (split <;> infer_instance) | infer_instance

/-- No discounts for order 1. -/
example : Undiscounted 1 := by decide +kernel

/-- The three discounts of an order are almost the given ones. -/
def Discounted (order : Nat) (d1 d2 d3 : ℚ) : Prop :=
  match smoother >>= fun m => Dict.get m.disc order with
  | .ok d => Almost d1 d.d1 ∧ Almost d2 d.d2 ∧ Almost d3 d.d3
  | .error _ => False

instance (order : Nat) (d1 d2 d3 : ℚ) : Decidable (Discounted order d1 d2 d3) := by
  unfold Discounted; split <;> infer_instance
''')
    for o in (2, 3):
        out.append('/-- Discounts of order %d. -/\nexample : Discounted %d %s := by\n  decide +kernel\n' % (
            o, o, ' '.join(rat(seg(a)) for a, b in disc if b.args[0].value == o)))
    out.append('''/-- A single worker takes the task, runs it and stops. -/
def alone : List Move := [.main] ++ List.replicate 3 (.worker 0) ++ [.main, .main]

/-- The n-grams of an order with their probabilities, with one process. -/
def smoothed (order : Nat) : Except PyErr (Option (List (Str × Num))) := do
  let m ← smoother
  let u ← m.calcUnigramProbas Rounding.exact 1 alone
  match u with
  | none => return none
  | some (ps, uni) => do
    let r ← (if order = 1 then .ok (some ps) else m.calcHigherOrderProbas Rounding.exact 1 alone uni order)
    return r.map fun l => (((Dict.get? m.counts.lm order).getD []).map Ngram.text).zip l

/-- As many probabilities as expected, and those of the given n-grams are almost the given ones. -/
def Smoothed (order size : Nat) (expected : List (Str × ℚ)) : Prop :=
  match smoothed order with
  | .ok (some l) => l.length = size ∧ ∀ e ∈ expected, ∃ p ∈ l, p.1 = e.1 ∧ ∃ v ∈ p.2.toList, Almost e.2 v
  | _ => False

instance (order size : Nat) (expected : List (Str × ℚ)) : Decidable (Smoothed order size expected) := by
  unfold Smoothed; split <;> infer_instance
''')
    for o, lp in enumerate(loops, 1):
        found = [(st.test.comparators[0].value, seg(st.body[0].value.args[0])) for st in lp.body[2:]]
        out.append('/-- Probabilities of order %d. -/\nexample : Smoothed %d %d\n    %s := by\n  decide +kernel\n' % (
            o, o, sizes[o - 1][0].value, wrap(lst([tup(q(a), rat(b)) for a, b in found]), '    ')))
    out.append('/-- `test_mkn_min_order_error` of `test_language_model_builder.py` -/\n'
               'example : Builder.new 1 c!"modified_kneser_ney" 1 = .error .minOrder := by\n  decide +kernel\n')
    write('LangModel', ['Verif.Model.Testing', 'Verif.Model.Builder', 'Verif.Model.LangModel'],
          'The tests of `/repo/tests/test_token_context.py`, `test_mkn_smoother.py` and `test_language_model_builder.py`,\nevaluated in the model.', '\n'.join(out))


if __name__ == '__main__':
    tables_file()
    logic_file()
    normalization_file()
    tokenizer_file()
    parsing_file()
    langmodel_file()
